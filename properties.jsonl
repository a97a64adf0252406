{"id": "C01", "title": "Full-mode sign/verify round trip", "statement": "If a key pair is produced by the seeded key generation and the full-mode sign call on a message of 1 to 64 bytes returns 0, then the full-mode verify call on that message, the produced signature bytes and length and the produced public key returns 0.", "quantifier": "for every 160-byte seed, every message of 1..64 bytes, every outcome of the random source, every prior content of the output buffers; the length cell lies apart from the signature and message outputs", "why_tests_cant": "The input space (seeds x messages x randomness) is astronomically large and a failure may sit on a rare path (hint wrap-around, carry in a field element, rejection-loop retry) that random tests practically never reach.", "anchors": ["hybrid-dilithium-sphincs/hybrid.c:crypto_sign_dilithium_ed25519_sphincs", "hybrid-dilithium-sphincs/hybrid.c:crypto_verify_dilithium_ed25519_sphincs", "hybrid-dilithium-sphincs/hybrid.c:crypto_sign_dilithium_ed25519_sphincs_keypair_seed", "dilithium2/sign.c", "sphincs/sign.c", "tweetnacl/tweetnacl.c:crypto_sign"]}
{"id": "C02", "title": "Full-mode open returns the signed message", "statement": "If full-mode sign returns 0 for message m under a generated key pair, full-mode open of the produced signature under the public key returns 0, writes exactly the bytes of m to the message buffer and writes the length of m.", "quantifier": "for every seed, message of 1..64 bytes and random source outcome; the length cell lies apart from the signature and message outputs", "why_tests_cant": "Same unbounded space as C01; also needs the claim that nothing but the message bytes and the length is written.", "anchors": ["hybrid-dilithium-sphincs/hybrid.c:crypto_sign_dilithium_ed25519_sphincs", "hybrid-dilithium-sphincs/hybrid.c:crypto_sign_dilithium_ed25519_sphincs_open"]}
{"id": "C03", "title": "Compact-mode sign/verify round trip", "statement": "If a key pair is produced by the seeded key generation and the compact sign call on a message of 1..64 bytes returns 0, then compact verify of that message, signature and public key returns 0.", "quantifier": "for every seed, every message of 1..64 bytes, every nonce the random source returns; message, signature and length buffers lie apart (C23 and C104 say what happens otherwise)", "why_tests_cant": "Unbounded inputs and rare arithmetic paths as in C01.", "anchors": ["hybrid-dilithium-sphincs/hybrid.c:crypto_sign_compact_dilithium_ed25519_sphincs", "hybrid-dilithium-sphincs/hybrid.c:crypto_verify_compact_dilithium_ed25519_sphincs", "hybrid-dilithium-sphincs/hybrid.c:crypto_sign_dilithium_ed25519_sphincs_keypair_seed"]}
{"id": "C04", "title": "Compact-mode open returns the signed message", "statement": "If compact sign returns 0 for message m, compact open of the produced signature under the public key returns 0 and delivers exactly m and its length.", "quantifier": "for every seed, message and nonce; message, signature and length buffers lie apart (C23 and C104 say what happens otherwise)", "why_tests_cant": "Unbounded inputs.", "anchors": ["hybrid-dilithium-sphincs/hybrid.c:crypto_sign_compact_dilithium_ed25519_sphincs", "hybrid-dilithium-sphincs/hybrid.c:crypto_sign_compact_dilithium_ed25519_sphincs_open"]}
{"id": "C05", "title": "Full signature wire format", "statement": "When full sign returns 0 the output is byte 2, byte mlen, the 64-byte Ed25519 signature, the message, the 2420-byte Dilithium signature and the 49856-byte SPHINCS+ signature in this order, the reported length is 52342 + mlen, and each part is what the component signer produced on the message with the matching part of the secret key.", "quantifier": "for every secret key buffer, message, memory content and random source outcome; the length cell lies apart from the signature and message outputs", "why_tests_cant": "Tests look at lengths for a few sizes; the format must hold for every input and every key so that independently written verifiers interoperate.", "anchors": ["hybrid-dilithium-sphincs/hybrid.c:crypto_sign_dilithium_ed25519_sphincs"]}
{"id": "C06", "title": "Compact signature wire format", "statement": "When compact sign returns 0 the output is byte 1, byte mlen, the 64-byte Ed25519 signature, the 2420-byte Dilithium signature, the 40-byte nonce and the message, the reported length is 2526 + mlen, and both component signatures are over SHA3-512(nonce | message | SPHINCS+ public key).", "quantifier": "for every secret key buffer, message, memory content and random source outcome; message, signature and length buffers lie apart (C23 and C104 say what happens otherwise)", "why_tests_cant": "As C05.", "anchors": ["hybrid-dilithium-sphincs/hybrid.c:crypto_sign_compact_dilithium_ed25519_sphincs"]}
{"id": "C07", "title": "Full acceptance is exactly the conjunction of the three component verifiers", "statement": "Full verify returns 0 if and only if the buffer has id 2, a length byte equal to the message length in 1..64, the exact total length, the embedded message equals the given message, and Ed25519, Dilithium and SPHINCS+ verification of the embedded parts all accept that same message under the matching parts of the public key.", "quantifier": "for every public key, message and signature buffer, including attacker-chosen ones", "why_tests_cant": "Security of the hybrid rests on every component being really required for every adversarial input; no finite set of forged inputs shows that.", "anchors": ["hybrid-dilithium-sphincs/hybrid.c:crypto_sign_dilithium_ed25519_sphincs_open", "hybrid-dilithium-sphincs/hybrid.c:crypto_verify_dilithium_ed25519_sphincs"]}
{"id": "C08", "title": "Compact acceptance is exactly Ed25519 and Dilithium on the bound hash", "statement": "Compact verify returns 0 if and only if the buffer has id 1, a valid length byte, the exact total length, the embedded message equals the given one, and both Ed25519 and Dilithium accept SHA3-512(nonce | message | SPHINCS+ part of the public key) under the matching parts of the public key.", "quantifier": "for every public key, message and signature buffer; for open, the output lies apart from the signature (C104 has the other placements)", "why_tests_cant": "Adversarial input space.", "anchors": ["hybrid-dilithium-sphincs/hybrid.c:crypto_sign_compact_dilithium_ed25519_sphincs_open", "hybrid-dilithium-sphincs/hybrid.c:crypto_verify_compact_dilithium_ed25519_sphincs"]}
{"id": "C09", "title": "No buffer is valid in both modes", "statement": "A signature buffer and length for which one mode's open returns 0 is rejected by the other mode's open and verify.", "quantifier": "for every buffer, length, public key, message", "why_tests_cant": "All possible buffers must be considered.", "anchors": ["hybrid-dilithium-sphincs/hybrid.c:crypto_sign_dilithium_ed25519_sphincs_open", "hybrid-dilithium-sphincs/hybrid.c:crypto_sign_compact_dilithium_ed25519_sphincs_open"]}
{"id": "C10", "title": "A signature buffer is valid for at most one message", "statement": "If verify returns 0 for the same signature buffer and public key with two messages, the messages and lengths are equal (in either mode).", "quantifier": "for every buffer, public key and pair of messages", "why_tests_cant": "Universal over pairs of messages.", "anchors": ["hybrid-dilithium-sphincs/hybrid.c:crypto_verify_dilithium_ed25519_sphincs", "hybrid-dilithium-sphincs/hybrid.c:crypto_verify_compact_dilithium_ed25519_sphincs"]}
{"id": "C11", "title": "Invalid arguments are rejected without side effects", "statement": "A NULL pointer argument makes sign, open, verify and keypair return -1; a message length of 0 or above 64 makes sign and verify return -1; a total length outside the permitted range makes open return -1 and verify -2. In all these cases no caller memory is read or written and no randomness is consumed.", "quantifier": "for every argument combination and memory state", "why_tests_cant": "Needs absence of any access, for all lengths up to 2^64-1.", "anchors": ["hybrid-dilithium-sphincs/hybrid.c:crypto_sign_dilithium_ed25519_sphincs", "hybrid-dilithium-sphincs/hybrid.c:crypto_sign_dilithium_ed25519_sphincs_open", "hybrid-dilithium-sphincs/hybrid.c:crypto_verify_dilithium_ed25519_sphincs", "hybrid-dilithium-sphincs/hybrid.c:crypto_sign_compact_dilithium_ed25519_sphincs", "hybrid-dilithium-sphincs/hybrid.c:crypto_sign_compact_dilithium_ed25519_sphincs_open", "hybrid-dilithium-sphincs/hybrid.c:crypto_verify_compact_dilithium_ed25519_sphincs", "hybrid-dilithium-sphincs/hybrid.c:crypto_sign_dilithium_ed25519_sphincs_keypair_seed", "hybrid-dilithium-sphincs/hybrid.c:crypto_sign_dilithium_ed25519_sphincs_keypair", "hybrid-dilithium-sphincs/hybrid.c:crypto_verify_dilithium"]}
{"id": "C12", "title": "Failing calls do not touch outputs", "statement": "When sign or open returns a nonzero code (in either mode) no byte of caller memory has changed; verify never changes caller memory whatever it returns.", "quantifier": "for every input, memory state and outcome of the component algorithms", "why_tests_cant": "Every failure path with every component outcome, including ones that the real components rarely or never produce.", "anchors": ["hybrid-dilithium-sphincs/hybrid.c:crypto_sign_dilithium_ed25519_sphincs", "hybrid-dilithium-sphincs/hybrid.c:crypto_sign_dilithium_ed25519_sphincs_open", "hybrid-dilithium-sphincs/hybrid.c:crypto_verify_dilithium_ed25519_sphincs", "hybrid-dilithium-sphincs/hybrid.c:crypto_sign_compact_dilithium_ed25519_sphincs", "hybrid-dilithium-sphincs/hybrid.c:crypto_sign_compact_dilithium_ed25519_sphincs_open", "hybrid-dilithium-sphincs/hybrid.c:crypto_verify_compact_dilithium_ed25519_sphincs"]}
{"id": "C13", "title": "Memory footprint and absence of undefined behaviour in the hybrid layer", "statement": "Given buffers of the documented sizes, sign, open, verify, the separate Dilithium verification, the seed expander and key generation have no out-of-bounds access, whether or not buffers overlap; on success sign changes only sm[0..smlen) and the length cell, open changes only m[0..mlen) and the length cell, key generation only pk[0..1408) and sk[0..4064), the seed expander only its 160 bytes.", "quantifier": "for every memory, every buffer placement and content", "why_tests_cant": "Out-of-bounds accesses that happen to hit mapped memory are invisible to tests; frame claims are universal over addresses.", "anchors": ["hybrid-dilithium-sphincs/hybrid.c:crypto_sign_dilithium_ed25519_sphincs", "hybrid-dilithium-sphincs/hybrid.c:crypto_sign_dilithium_ed25519_sphincs_open", "hybrid-dilithium-sphincs/hybrid.c:crypto_verify_dilithium_ed25519_sphincs", "hybrid-dilithium-sphincs/hybrid.c:crypto_sign_compact_dilithium_ed25519_sphincs", "hybrid-dilithium-sphincs/hybrid.c:crypto_sign_compact_dilithium_ed25519_sphincs_open", "hybrid-dilithium-sphincs/hybrid.c:crypto_verify_compact_dilithium_ed25519_sphincs", "hybrid-dilithium-sphincs/hybrid.c:crypto_sign_dilithium_ed25519_sphincs_keypair_seed", "hybrid-dilithium-sphincs/hybrid.c:crypto_sign_dilithium_ed25519_sphincs_keypair"]}
{"id": "C14", "title": "Composite key layout", "statement": "Seeded key generation on a 160-byte seed writes pk = Ed25519 pk | Dilithium pk | SPHINCS+ pk and sk = Ed25519 sk | Dilithium sk | Dilithium pk | SPHINCS+ sk, where the parts are the component key pairs from seed bytes 0..31, 32..63 and 64..159; the SPHINCS+ public key is the last 64 bytes of both pk and sk and the Ed25519 public key is bytes 32..63 of sk.", "quantifier": "for every seed; the public key output lies apart from the secret key output", "why_tests_cant": "Universal over seeds.", "anchors": ["hybrid-dilithium-sphincs/hybrid.c:crypto_sign_dilithium_ed25519_sphincs_keypair_seed"]}
{"id": "C15", "title": "Seeded key generation is a pure function of the seed", "statement": "Two seeded key generation calls with the same 160 seed bytes produce the same key pair, whatever the prior content of the output buffers and state of the random source, and consume no randomness; unseeded key generation equals seeded key generation on the 160 bytes the random source returned.", "quantifier": "for every seed, every prior memory content, every random source; the public key output lies apart from the secret key output", "why_tests_cant": "Dependence on prior (uninitialised) buffer content only shows for particular memory contents.", "anchors": ["hybrid-dilithium-sphincs/hybrid.c:crypto_sign_dilithium_ed25519_sphincs_keypair_seed", "hybrid-dilithium-sphincs/hybrid.c:crypto_sign_dilithium_ed25519_sphincs_keypair", "sphincs/merkle.c", "sphincs/sign.c"]}
{"id": "C16", "title": "Random source failures are reported", "statement": "If the random source fails, unseeded key generation and compact sign return -1 and full sign returns -4, and caller memory is unchanged.", "quantifier": "for every input and every random source that fails at that draw", "why_tests_cant": "The failure schedule of the random source is not controllable from the tests.", "anchors": ["hybrid-dilithium-sphincs/hybrid.c:crypto_sign_dilithium_ed25519_sphincs_keypair", "hybrid-dilithium-sphincs/hybrid.c:crypto_sign_dilithium_ed25519_sphincs", "hybrid-dilithium-sphincs/hybrid.c:crypto_sign_compact_dilithium_ed25519_sphincs", "sphincs/sign.c", "random/randombytes.c:randombytes"]}
{"id": "C17", "title": "Every seed byte matters to the seed expander", "statement": "The seed expander expands the first 64 bytes of the 96-byte input seed, as its documentation says: the 160-byte result is determined by all of them and is SHAKE256(seed[0..63] | 2) on 128 bytes with seed[64..95] inserted. (False of the code: bytes at odd positions below 64 are ignored.)", "quantifier": "for every 96-byte seed; the output lies apart from the seed (C104 covers other placements)", "why_tests_cant": "A known-answer test was generated from the code itself and passes with the defect; only a statement over all pairs of seeds reveals that half of the bytes are ignored.", "anchors": ["hybrid-dilithium-sphincs/hybrid.c:crypto_sign_dilithium_ed25519_sphincs_keypair_seed_expander", "common/shake_prng.c:seedexpander_wrapper"]}
{"id": "C18", "title": "Seed expander structure", "statement": "The seed expander returns 0, writes exactly 160 bytes: positions 32..63 are seed bytes 64..95 and the other 128 bytes are the first 128 bytes of SHAKE256 over the (effective) 64-byte seed followed by byte 2.", "quantifier": "for every seed and memory; the output lies apart from the seed (C104 covers other placements)", "why_tests_cant": "Universal over seeds; plus frame.", "anchors": ["hybrid-dilithium-sphincs/hybrid.c:crypto_sign_dilithium_ed25519_sphincs_keypair_seed_expander", "common/shake_prng.c"]}
{"id": "C19", "title": "Compact signing input is unambiguous", "statement": "Two compact signatures that are bound to the same hash input have the same nonce, the same message and the same SPHINCS+ public key; hence reusing the component signatures of one accepted compact signature for a different nonce, message or SPHINCS+ key is accepted only if both components accept the two different hash values or the two hash inputs are a collision of SHA3-512.", "quantifier": "for every pair of accepted compact signatures and public keys", "why_tests_cant": "Ambiguity of concatenation needs a statement over all pairs and lengths.", "anchors": ["hybrid-dilithium-sphincs/hybrid.c:crypto_sign_compact_dilithium_ed25519_sphincs", "hybrid-dilithium-sphincs/hybrid.c:crypto_sign_compact_dilithium_ed25519_sphincs_open"]}
{"id": "C20", "title": "The two modes are domain separated", "statement": "Component signatures made for a full-mode signature cannot be repackaged without the secret key into a compact-mode signature of another message. (False: full mode signs raw messages, so a full signature on a 64-byte message equal to a compact hash converts into a valid compact signature.)", "quantifier": "for every key, message and signature", "why_tests_cant": "The counterexample needs a specially constructed message; no ordinary test makes one.", "anchors": ["hybrid-dilithium-sphincs/hybrid.c:crypto_sign_dilithium_ed25519_sphincs", "hybrid-dilithium-sphincs/hybrid.c:crypto_sign_compact_dilithium_ed25519_sphincs_open"]}
{"id": "C21", "title": "Signatures are not malleable", "statement": "From an accepted signature one cannot derive a different accepted signature of the same message without the secret key. (False: the Ed25519 verifier does not require the scalar S to be below the group order L, so S can be replaced by S + L.)", "quantifier": "for every accepted signature", "why_tests_cant": "Requires arithmetic on the attacker side that tests do not attempt, and a proof that it works for every signature.", "anchors": ["tweetnacl/tweetnacl.c:crypto_sign_open", "hybrid-dilithium-sphincs/hybrid.c:crypto_sign_compact_dilithium_ed25519_sphincs_open", "hybrid-dilithium-sphincs/hybrid.c:crypto_sign_dilithium_ed25519_sphincs_open"]}
{"id": "C22", "title": "Standalone Dilithium verification", "statement": "crypto_verify_dilithium returns 0 exactly when the message has 1..64 bytes, the signature length is 2420 and Dilithium verification accepts; in particular the Dilithium part cut out of an accepted full signature is accepted on its own.", "quantifier": "for every input", "why_tests_cant": "Universal over inputs; the component-stripping consequence is not tested.", "anchors": ["hybrid-dilithium-sphincs/hybrid.c:crypto_verify_dilithium", "dilithium2/sign.c:PQCLEAN_DILITHIUM2_CLEAN_crypto_sign_verify"]}
{"id": "C23", "title": "Overlapping message and output buffers", "statement": "Signing with a message buffer that overlaps the signature output buffer gives the same result as with separate buffers. (True for full mode; false for compact mode, which reads the message again after it has started to write the output.)", "quantifier": "for every placement of the buffers", "why_tests_cant": "Tests use separate buffers only.", "anchors": ["hybrid-dilithium-sphincs/hybrid.c:crypto_sign_dilithium_ed25519_sphincs", "hybrid-dilithium-sphincs/hybrid.c:crypto_sign_compact_dilithium_ed25519_sphincs"]}
{"id": "C24", "title": "Randomness use per call", "statement": "Over any history of calls, each compact sign call takes exactly one 40-byte draw, which becomes the nonce stored in its own signature, each full sign call takes exactly one 32-byte draw, unseeded key generation exactly one 160-byte draw, and open, verify and seeded key generation take none.", "quantifier": "for every sequence of API calls and every random source", "why_tests_cant": "Statement about unbounded call histories.", "anchors": ["hybrid-dilithium-sphincs/hybrid.c:crypto_sign_dilithium_ed25519_sphincs", "hybrid-dilithium-sphincs/hybrid.c:crypto_sign_compact_dilithium_ed25519_sphincs", "hybrid-dilithium-sphincs/hybrid.c:crypto_sign_dilithium_ed25519_sphincs_keypair"]}
{"id": "C25", "title": "Keccak permutation equals FIPS 202", "statement": "The 1600-bit permutation is 24 rounds of theta, rho, pi, chi, iota with the FIPS 202 rotation offsets and round constants.", "quantifier": "for every 1600-bit state", "why_tests_cant": "2^1600 states.", "anchors": ["common/fips202.c:KeccakF1600_StatePermute"]}
{"id": "C26", "title": "Hash functions equal FIPS 202", "statement": "sha3_256, sha3_384, sha3_512, shake128 and shake256 return, for every input and output length, the FIPS 202 sponge output with the right rate, domain suffix and pad10*1 padding.", "quantifier": "for every input of every length and every output length", "why_tests_cant": "Block-boundary cases for every length; tests only have fixed lengths.", "anchors": ["common/fips202.c:shake128", "common/fips202.c:shake256", "common/fips202.c:sha3_256", "common/fips202.c:sha3_384", "common/fips202.c:sha3_512"]}
{"id": "C27", "title": "Incremental hashing is independent of chunking", "statement": "Absorbing an input in any number of pieces of any sizes with the incremental interface and finalising gives the same output as the one-shot function on the concatenation.", "quantifier": "for every list of chunks (including empty ones)", "why_tests_cant": "Infinitely many chunkings.", "anchors": ["common/fips202.c:keccak_inc_absorb", "common/fips202.c:keccak_inc_finalize", "common/fips202.c:sha3_512_inc_absorb", "common/fips202.c:shake256_inc_absorb"]}
{"id": "C28", "title": "Squeezing is independent of chunking", "statement": "Squeezing in any sequence of sizes from an incremental SHAKE state gives consecutive pieces of the one output stream; squeezing whole blocks agrees with it.", "quantifier": "for every list of output sizes", "why_tests_cant": "Infinitely many sequences.", "anchors": ["common/fips202.c:keccak_inc_squeeze", "common/fips202.c:keccak_squeezeblocks"]}
{"id": "C29", "title": "Seed expander stream", "statement": "seedexpander_wrapper returns -1 for NULL, -2 for a seed shorter than 32 bytes, -3 when the output is not longer than the seed, otherwise 0 with the first outlen bytes of SHAKE256(seed | 2); a longer request extends a shorter one.", "quantifier": "for every seed, seed length and output length", "why_tests_cant": "Universal over lengths.", "anchors": ["common/shake_prng.c:seedexpander", "common/shake_prng.c:seedexpander_init", "common/shake_prng.c:seedexpander_wrapper"]}
{"id": "C30", "title": "randombytes fills the whole buffer or fails", "statement": "On Linux with getrandom, if randombytes returns 0 every byte of the buffer was delivered by the kernel exactly once and in order, whatever short reads and interruptions happened; any error other than an interruption gives a nonzero result.", "quantifier": "for every length and every schedule of system-call results (short reads, EINTR, errors)", "why_tests_cant": "The kernel's schedule of short reads and interruptions cannot be driven by tests.", "anchors": ["random/randombytes.c:randombytes_linux_randombytes_getrandom", "random/randombytes.c:randombytes"]}
{"id": "C31", "title": "Dilithium sign/verify round trip", "statement": "For a key pair from seeded Dilithium key generation, whenever signing terminates its 2420-byte output is accepted by verification of the same message under the public key.", "quantifier": "for every seed and message of any length, any number of rejection rounds", "why_tests_cant": "Rare paths (hint at the wrap-around q-1, rejection retries) for an unbounded input space.", "anchors": ["dilithium2/sign.c:PQCLEAN_DILITHIUM2_CLEAN_crypto_sign_keypair_seed", "dilithium2/sign.c:PQCLEAN_DILITHIUM2_CLEAN_crypto_sign_signature", "dilithium2/sign.c:PQCLEAN_DILITHIUM2_CLEAN_crypto_sign_verify"]}
{"id": "C32", "title": "Dilithium signature encoding is canonical", "statement": "Every 2420-byte string that the signature decoder accepts is exactly the encoding of what it decodes to, so two different strings never decode to the same signature; strings with unsorted hints, too many hints or nonzero padding are rejected.", "quantifier": "for every 2420-byte string", "why_tests_cant": "2^19360 strings; the point is what an attacker may try.", "anchors": ["dilithium2/packing.c:PQCLEAN_DILITHIUM2_CLEAN_unpack_sig", "dilithium2/packing.c:PQCLEAN_DILITHIUM2_CLEAN_pack_sig"]}
{"id": "C33", "title": "Dilithium key and polynomial encodings round-trip", "statement": "Decoding an encoded public key, secret key, t1, t0, eta or z polynomial gives back the encoded values whenever the coefficients are in their documented ranges.", "quantifier": "for every coefficient vector in range", "why_tests_cant": "Coefficient space is far beyond enumeration.", "anchors": ["dilithium2/packing.c", "dilithium2/poly.c:PQCLEAN_DILITHIUM2_CLEAN_polyt1_pack"]}
{"id": "C34", "title": "Modular reductions are correct without overflow", "statement": "montgomery_reduce, reduce32, caddq and freeze return the documented representative modulo 8380417 in the documented range for every input in their documented domain, without signed overflow.", "quantifier": "for every 32/64-bit input in the domain", "why_tests_cant": "2^54 inputs for the Montgomery reduction.", "anchors": ["dilithium2/reduce.c"]}
{"id": "C35", "title": "NTT multiplication is multiplication in Z_q[x]/(x^256+1)", "statement": "Transforming two polynomials, multiplying pointwise and transforming back gives their negacyclic product modulo q, and no intermediate value overflows a 32-bit integer for the input ranges used.", "quantifier": "for every pair of polynomials", "why_tests_cant": "q^512 inputs.", "anchors": ["dilithium2/ntt.c", "dilithium2/poly.c:PQCLEAN_DILITHIUM2_CLEAN_poly_pointwise_montgomery"]}
{"id": "C36", "title": "Rounding and hints", "statement": "power2round and decompose split every residue as documented, and use_hint with the bit from make_hint recovers the high part of r + z from r for every residue r and every small enough z.", "quantifier": "for every residue and every admissible error", "why_tests_cant": "Wrap-around at q-1 is a corner that sampling misses.", "anchors": ["dilithium2/rounding.c"]}
{"id": "C37", "title": "Samplers stay in range", "statement": "Every coefficient produced by the uniform sampler is in [0,q), by the eta sampler in [-2,2], by the mask sampler in (-2^17, 2^17], and the challenge polynomial has exactly 39 coefficients equal to 1 or -1 and zeros elsewhere.", "quantifier": "for every seed and nonce, whenever the sampler terminates", "why_tests_cant": "Universal over the XOF output.", "anchors": ["dilithium2/poly.c:PQCLEAN_DILITHIUM2_CLEAN_poly_uniform", "dilithium2/poly.c:PQCLEAN_DILITHIUM2_CLEAN_poly_uniform_eta", "dilithium2/poly.c:PQCLEAN_DILITHIUM2_CLEAN_poly_challenge"]}
{"id": "C38", "title": "Released Dilithium signatures satisfy the norm bounds", "statement": "Every signature that Dilithium signing outputs has response coefficients of absolute value below gamma1 - beta and at most 80 hints, so that no response outside the leak-free range is ever released.", "quantifier": "for every key, message and number of rejection rounds", "why_tests_cant": "Rejection sampling: the leak would be in rare executions.", "anchors": ["dilithium2/sign.c:PQCLEAN_DILITHIUM2_CLEAN_crypto_sign_signature", "dilithium2/poly.c:PQCLEAN_DILITHIUM2_CLEAN_poly_chknorm"]}
{"id": "C39", "title": "Dilithium verification is safe on attacker input", "statement": "Verification of any signature bytes of any length under any 1312 public-key bytes has no signed overflow and no out-of-bounds access, and rejects unless the length is 2420.", "quantifier": "for every public key, message, signature and length", "why_tests_cant": "Adversarial inputs; overflow only for particular coefficient patterns.", "anchors": ["dilithium2/sign.c:PQCLEAN_DILITHIUM2_CLEAN_crypto_sign_verify"]}
{"id": "C40", "title": "Attached Dilithium signatures", "statement": "crypto_sign produces signature followed by message; crypto_sign_open returns the message for an accepted one and otherwise returns -1 with length all-ones and a zeroed buffer.", "quantifier": "for every message and buffer", "why_tests_cant": "Universal over inputs.", "anchors": ["dilithium2/sign.c:PQCLEAN_DILITHIUM2_CLEAN_crypto_sign", "dilithium2/sign.c:PQCLEAN_DILITHIUM2_CLEAN_crypto_sign_open"]}
{"id": "C41", "title": "Masking nonces never repeat within one signature", "statement": "All masking polynomials sampled during one Dilithium signing call use distinct nonces. (Holds for the first 16384 rejection rounds; the 16-bit counter wraps after that.)", "quantifier": "for every number of rejection rounds", "why_tests_cant": "Wrap-around needs 16384 consecutive rejections.", "anchors": ["dilithium2/sign.c:PQCLEAN_DILITHIUM2_CLEAN_crypto_sign_signature", "dilithium2/polyvec.c:PQCLEAN_DILITHIUM2_CLEAN_polyvecl_uniform_gamma1"]}
{"id": "C42", "title": "SPHINCS+ sign/verify round trip", "statement": "For a key pair from seeded SPHINCS+ key generation, if signing returns 0 the 49856-byte signature is accepted by verification of the same message under the public key.", "quantifier": "for every 96-byte seed, message of any length and every random draw", "why_tests_cant": "Covers all 2^68 leaf choices and all digests.", "anchors": ["sphincs/sign.c"]}
{"id": "C43", "title": "Tree hashing computes the Merkle root and authentication path", "statement": "The stack-based tree hashing returns the root of the full binary hash tree over the leaves and, for the selected leaf, the sibling nodes bottom-up; hashing the leaf up along this path gives the same root.", "quantifier": "for every tree height, leaf function, leaf index and index offset", "why_tests_cant": "Universal over trees and heights.", "anchors": ["sphincs/utilsx1.c", "sphincs/utils.c:treehash", "sphincs/utils.c:compute_root"]}
{"id": "C44", "title": "WOTS+ message encoding is domination free", "statement": "For two different 32-byte messages there is a chain whose position for the second message is smaller than for the first, so a one-time signature never reveals a signature of another message; all positions are in 0..15.", "quantifier": "for every pair of messages", "why_tests_cant": "2^512 pairs.", "anchors": ["sphincs/wots.c:chain_lengths"]}
{"id": "C45", "title": "FORS index extraction", "statement": "The 40-byte message digest gives 35 indices, each below 512, read from consecutive 9-bit groups; the digest split gives a tree index below 2^64 and a leaf index below 16.", "quantifier": "for every digest", "why_tests_cant": "2^320 digests.", "anchors": ["sphincs/fors.c:message_to_indices", "sphincs/hash_shake.c"]}
{"id": "C46", "title": "Hash addresses are unambiguous", "statement": "Two address descriptions (layer, tree, type, key pair, chain or height, hash or index) within the ranges of the parameter set that yield the same 32 address bytes are equal, and the setters do not disturb each other's fields.", "quantifier": "for every pair of descriptions", "why_tests_cant": "Field overlap needs an argument over all field values.", "anchors": ["sphincs/address.c", "sphincs/shake_offsets.h"]}
{"id": "C47", "title": "SPHINCS+ public key depends on the seed only", "statement": "Seeded SPHINCS+ key generation returns the same keys whatever the output buffers contained before, although it reads the not yet initialised root area.", "quantifier": "for every seed and prior content", "why_tests_cant": "Depends on stale memory values.", "anchors": ["sphincs/sign.c", "sphincs/merkle.c:merkle_gen_root"]}
{"id": "C48", "title": "SPHINCS+ verification is safe on attacker input", "statement": "Verification reads only within the 49856 signature bytes and 64 key bytes, uses leaf and tree indices within range, always terminates and rejects every other length.", "quantifier": "for every signature, length, message and public key", "why_tests_cant": "Adversarial inputs.", "anchors": ["sphincs/sign.c", "sphincs/utils.c:compute_root"]}
{"id": "C49", "title": "Attached SPHINCS+ signing reports failure of the random source", "statement": "If the random source fails, the attached SPHINCS+ sign function returns a nonzero code. (False: it ignores the result and returns 0 with an indeterminate length.)", "quantifier": "for every input", "why_tests_cant": "Failure schedule of the random source.", "anchors": ["sphincs/sign.c"]}
{"id": "C50", "title": "Ed25519 sign/open round trip", "statement": "For a key pair from seeded Ed25519 key generation, opening the signed message under the public key returns 0 and the message. Unseeded key generation draws 32 bytes once and gives the key pair of the seed drawn; if the draw fails it returns nonzero and writes nothing.", "quantifier": "for every 32-byte seed and every message shorter than 2^31 - 64 bytes (longer signed messages run into the defect of C56)", "why_tests_cant": "Unbounded inputs; needs the group law of the curve and all carry paths.", "anchors": ["tweetnacl/tweetnacl.c:crypto_sign", "tweetnacl/tweetnacl.c:crypto_sign_open", "tweetnacl/tweetnacl.c:crypto_sign_keypair_seed", "tweetnacl/tweetnacl.c:crypto_sign_keypair"]}
{"id": "C51", "title": "Ed25519 acceptance condition", "statement": "crypto_sign_open returns 0 if and only if the length is at least 64, the public key decodes to a curve point A and the first 32 signature bytes are the encoding of [S]B - [H(R,A,M)]A.", "quantifier": "for every public key, and every signed message shorter than 2^31 bytes (longer ones run into the defect of C56)", "why_tests_cant": "Adversarial inputs.", "anchors": ["tweetnacl/tweetnacl.c:crypto_sign_open", "tweetnacl/tweetnacl.c:unpackneg"]}
{"id": "C52", "title": "Field arithmetic modulo 2^255-19", "statement": "Addition, subtraction, multiplication, squaring, inversion and the (p-5)/8 power return the right residue, without 64-bit overflow, and packing gives the unique little-endian representative below p.", "quantifier": "for every pair of field elements in limb range", "why_tests_cant": "2^510 inputs; carry bugs hit with probability around 2^-64.", "anchors": ["tweetnacl/tweetnacl.c:M", "tweetnacl/tweetnacl.c:car25519", "tweetnacl/tweetnacl.c:pack25519", "tweetnacl/tweetnacl.c:inv25519"]}
{"id": "C53", "title": "Scalar reduction modulo the group order", "statement": "modL and reduce return 32 bytes that encode the input value modulo L, fully reduced, for the input ranges that signing and verification produce, without overflow.", "quantifier": "for every input in range", "why_tests_cant": "2^512 inputs, rare carries.", "anchors": ["tweetnacl/tweetnacl.c:modL", "tweetnacl/tweetnacl.c:reduce"]}
{"id": "C54", "title": "SHA-512 equals FIPS 180-4", "statement": "crypto_hash returns the SHA-512 digest for every input length (padding across block boundaries included).", "quantifier": "for every input", "why_tests_cant": "Infinite inputs.", "anchors": ["tweetnacl/tweetnacl.c:crypto_hash", "tweetnacl/tweetnacl.c:crypto_hashblocks"]}
{"id": "C55", "title": "Constant-time comparison decides equality", "statement": "crypto_verify_16 and crypto_verify_32 return 0 when the byte strings are equal and -1 otherwise.", "quantifier": "for every pair of strings", "why_tests_cant": "2^512 pairs.", "anchors": ["tweetnacl/tweetnacl.c:vn", "tweetnacl/tweetnacl.c:crypto_verify_32"]}
{"id": "C56", "title": "Ed25519 opening never releases an unverified message", "statement": "When crypto_sign_open fails after reading, the message area is zero (or untouched for short input and undecodable keys) and the reported length is 2^64-1; it has no undefined behaviour for any public key and signature bytes. (False for lengths from 2^31 on: the loop counter is an int.)", "quantifier": "for every input", "why_tests_cant": "Adversarial inputs.", "anchors": ["tweetnacl/tweetnacl.c:crypto_sign_open"]}
{"id": "C57", "title": "Curve operations implement the Edwards group", "statement": "The addition routine is complete on the curve (no exceptional points), and scalar multiplication by a 32-byte scalar is repeated addition.", "quantifier": "for every pair of points and every scalar", "why_tests_cant": "2^510 pairs of points.", "anchors": ["tweetnacl/tweetnacl.c:add", "tweetnacl/tweetnacl.c:scalarmult", "tweetnacl/tweetnacl.c:scalarbase"]}
{"id": "C58", "title": "Consecutive seed expander calls skip to the next multiple of eight", "statement": "Two calls of seedexpander on one state for n1 and n2 bytes return bytes 0..n1-1 and bytes a..a+n2-1 of SHAKE256(seed | 2), where a is n1 rounded up to a multiple of 8; the bytes in between are lost, so the expander is not a plain stream.", "quantifier": "for every seed, all lengths n1, n2 and all buffer contents", "why_tests_cant": "The lost bytes only show when the lengths of two calls are compared with one long call, for every residue modulo 8 and every block position.", "anchors": ["common/shake_prng.c:seedexpander", "common/shake_prng.c:seedexpander_init"]}
{"id": "C59", "title": "The SPHINCS+ code computes SPHINCS+-SHAKE-256f-simple", "statement": "Key generation, signing and verification return exactly the public key, signature and decision of a purely functional specification of the scheme written from the submission document (WOTS+, XMSS, hypertree, FORS, SHAKE256 simple).", "quantifier": "for every seed, key, message, random draw, signature and length", "why_tests_cant": "A KAT covers a handful of seeds; the 2^68 tree/leaf positions and all digests are out of reach.", "anchors": ["sphincs/sign.c", "sphincs/merkle.c", "sphincs/fors.c", "sphincs/wots.c", "sphincs/utilsx1.c", "sphincs/hash_shake.c"]}
{"id": "C60", "title": "Attached SPHINCS+ interface", "statement": "Opening accepts exactly when the length is at least 49856 and the prefix is a valid signature of the rest, then returns exactly the message; otherwise it returns -1 with length 0 and an unchanged buffer. Opening what attached signing produced returns the message if the random source worked.", "quantifier": "for every input, length, key and message", "why_tests_cant": "Adversarial lengths and contents.", "anchors": ["sphincs/sign.c:crypto_sign", "sphincs/sign.c:crypto_sign_open"]}
{"id": "C61", "title": "The Dilithium code computes the Dilithium scheme", "statement": "Seeded key generation, signing and verification return exactly the keys, signature and decision of a separate specification written from the submission document (ring arithmetic by the schoolbook negacyclic product, SHAKE128/SHAKE256 of FIPS 202), for keys, messages and signatures that need not be honestly generated, and never fault.", "quantifier": "for every seed, every 2560 secret key bytes, every 1312 public key bytes, every signature and message", "why_tests_cant": "A known-answer test covers honest keys; adversarial keys and signatures and all rejection paths are out of reach.", "anchors": ["dilithium2/sign.c", "dilithium2/polyvec.c", "dilithium2/poly.c", "dilithium2/packing.c"]}
{"id": "C62", "title": "Dilithium is deterministic", "statement": "One seed has at most one key pair and one secret key and message at most one signature, independently of the previous contents of the output buffers.", "quantifier": "for every seed, secret key, message and buffer contents", "why_tests_cant": "Dependence on stale buffer contents shows only for particular contents.", "anchors": ["dilithium2/sign.c:crypto_sign_keypair_seed", "dilithium2/sign.c:crypto_sign_signature"]}
{"id": "C63", "title": "Attached Dilithium functions tolerate the in-place call", "statement": "crypto_sign with the message at the start of the output buffer, and crypto_sign_open with the output at the start of the input buffer, give the same result as with separate buffers.", "quantifier": "for every buffer, length and key", "why_tests_cant": "A forward instead of a backward copy only fails for messages longer than the signature.", "anchors": ["dilithium2/sign.c:crypto_sign", "dilithium2/sign.c:crypto_sign_open"]}
{"id": "C64", "title": "Dilithium key generation uses exactly one draw", "statement": "crypto_sign_keypair makes one draw of 32 bytes; if it fails the result is -1 and no key byte is written, otherwise the keys are those of the drawn seed.", "quantifier": "for every behaviour of the random source", "why_tests_cant": "Failure of the random source is not exercised.", "anchors": ["dilithium2/sign.c:crypto_sign_keypair"]}
{"id": "C65", "title": "The /dev/urandom variant of randombytes delivers every byte or reports failure", "statement": "With the /dev/urandom source, randombytes returns 0 only if every byte of the buffer was delivered by the device exactly once and in order, whatever short reads and interruptions happened; failure to open the device, to wait for entropy or to read gives -1. (A device that returns end of file makes the call loop for ever; stated as its own theorem.)", "quantifier": "for every length and every schedule of results of open, wait and read", "why_tests_cant": "Tests see the schedules that the kernel happens to produce; short reads and signals at chosen points cannot be provoked for every length.", "anchors": ["random/randombytes.c:277-304"]}
{"id": "C66", "title": "Verification and opening accept exactly the signatures of the published component schemes", "statement": "With the code of TweetNaCl, Dilithium2, SPHINCS+ and Keccak in place of the components, full verification returns 0 exactly for the wire format with three signatures of the message valid under the specifications of Ed25519, Dilithium2 and SPHINCS+, and compact verification exactly for an Ed25519 and a Dilithium2 signature of SHA3-512(nonce, message, SPHINCS+ public key). Opening agrees and delivers the message.", "quantifier": "for every memory, signature buffer, message, key and length (for compact opening, the message buffer does not overlap the signature)", "why_tests_cant": "The set of accepted byte strings is infinite for practical purposes; tests sample a few mutations.", "anchors": ["hybrid-dilithium-sphincs/hybrid.c:346-466", "hybrid-dilithium-sphincs/hybrid.c:566-696", "tweetnacl/tweetnacl.c", "dilithium2/sign.c", "sphincs/sign.c"]}
{"id": "C67", "title": "Key generation is the published key generation of the three schemes on fixed parts of the seed", "statement": "crypto_sign_keypair_seed returns 0 and writes the Ed25519 public key of seed[0..31], the Dilithium2 key pair of seed[32..63] and the SPHINCS+ key pair of seed[64..159], laid out as in C14, each as its specification says. Unseeded key generation makes one draw of 160 bytes and does the same with them; if the draw fails it returns -1 and changes no memory.", "quantifier": "for every 160-byte seed and every memory in which the two key buffers do not overlap (the seed may overlap them)", "why_tests_cant": "2^1280 seeds; known answers check a handful and share the code under test.", "anchors": ["hybrid-dilithium-sphincs/hybrid.c:174-245", "hybrid-dilithium-sphincs/hybrid.c:247-257"]}
{"id": "C68", "title": "Signing is the published signing of the component schemes in the documented wire format", "statement": "Full signing returns -4 with only the draw recorded if the random source fails and otherwise 0 with the wire format of the Ed25519, Dilithium2 and SPHINCS+ signatures of the message as their specifications say; compact signing returns -1 in that case and otherwise 0 with the Ed25519 and Dilithium2 signatures of the hash. No other result is possible.", "quantifier": "for every message of 1 to 64 bytes, every memory, secret key and random bytes (in compact mode, with a signature buffer that does not overlap the message)", "why_tests_cant": "Known answers cover a few keys; the absence of other results needs all of them.", "anchors": ["hybrid-dilithium-sphincs/hybrid.c:259-344", "hybrid-dilithium-sphincs/hybrid.c:468-564"]}
{"id": "C69", "title": "Correctness of the hybrid scheme as mathematics", "statement": "Every byte string that the specification of signing allows for a key pair of the specification of key generation meets the specification of verification, in both modes.", "quantifier": "for every seed, message of 1 to 64 bytes and random bytes", "why_tests_cant": "A statement about the specifications, with no program to run.", "anchors": ["hybrid-dilithium-sphincs/hybrid.h:1-56"]}
{"id": "C70", "title": "The Salsa20 core functions", "statement": "crypto_core_salsa20 computes the Salsa20 expansion function and crypto_core_hsalsa20 computes HSalsa20, although the type u32 is unsigned long and its bits above the low 32 are never masked.", "quantifier": "for every key, input and every width of unsigned long from 32 bits on", "why_tests_cant": "The result must be the same for all 2^384 inputs and on every platform.", "anchors": ["tweetnacl/tweetnacl.c:25-46", "tweetnacl/tweetnacl.c:78-130"]}
{"id": "C71", "title": "The XSalsa20 stream", "statement": "crypto_stream writes the first d bytes of the XSalsa20 key stream and crypto_stream_xor the message xored with it; bytes after the first d are not touched; encrypting twice gives the message back.", "quantifier": "for every length, key, nonce and message", "why_tests_cant": "The block counter and the last partial block depend on the length, which has no bound.", "anchors": ["tweetnacl/tweetnacl.c:132-185"]}
{"id": "C72", "title": "Poly1305", "statement": "crypto_onetimeauth computes Poly1305, with no overflow in the limb products and a fully reduced result; crypto_onetimeauth_verify returns 0 for that tag and -1 for any other 16 bytes.", "quantifier": "for every key and message of any length", "why_tests_cant": "Carry errors in such code occur for a tiny fraction of inputs and random tests do not meet them.", "anchors": ["tweetnacl/tweetnacl.c:187-243"]}
{"id": "C73", "title": "crypto_secretbox", "statement": "For a message after 32 zero bytes crypto_secretbox writes 16 zero bytes, the Poly1305 tag under the first 32 key stream bytes, and the message xored with the rest, and nothing behind; a length below 32 is refused by both functions with nothing written.", "quantifier": "for every message, key and nonce", "why_tests_cant": "All lengths and all keys.", "anchors": ["tweetnacl/tweetnacl.c:245-265"]}
{"id": "C74", "title": "crypto_secretbox_open accepts exactly the valid boxes", "statement": "It returns 0 with 32 zero bytes and the message if the bytes after the first 16 are the box of some message, and otherwise -1 with the output unchanged; a box made by crypto_secretbox is opened.", "quantifier": "for every input, key and nonce", "why_tests_cant": "\"Nothing else is accepted and nothing is released on failure\" ranges over all inputs.", "anchors": ["tweetnacl/tweetnacl.c:255-265"]}
{"id": "C75", "title": "X25519", "statement": "crypto_scalarmult gives the reduced x-coordinate of the clamped scalar times a point of the elliptic curve y^2 = x^3 + 486662 x^2 + x with the given x-coordinate (0 for the point at infinity), over any field containing the integers modulo 2^255-19, which determines it, and every coordinate has such a point.", "quantifier": "for every 32-byte scalar and every 32-byte coordinate, on the curve or on its twist", "why_tests_cant": "2^512 inputs; exceptional cases of the ladder have negligible probability in random tests.", "anchors": ["tweetnacl/tweetnacl.c:394-443"]}
{"id": "C76", "title": "Diffie-Hellman agreement", "statement": "X25519(a, X25519(b, q)) = X25519(b, X25519(a, q)).", "quantifier": "for all 32-byte strings a, b and q", "why_tests_cant": "Tests try some pairs.", "anchors": ["tweetnacl/tweetnacl.c:394-448"]}
{"id": "C77", "title": "Bits that X25519 ignores", "statement": "The result depends only on the bits 3 to 253 of the scalar and on the low 255 bits of the coordinate modulo 2^255-19; unreduced coordinates are accepted.", "quantifier": "for all pairs of inputs that agree in these", "why_tests_cant": "A relation between pairs of inputs.", "anchors": ["tweetnacl/tweetnacl.c:394-443"]}
{"id": "C78", "title": "Exactly five coordinates give zero; the shared key is then constant", "statement": "crypto_scalarmult returns zero, without an error, exactly when the coordinate of the public key is one of five explicit numbers, those of the points of order 1, 2, 4 or 8; this does not depend on the secret key. For these crypto_box_beforenm gives one constant key.", "quantifier": "for every secret key and every public key of 32 bytes", "why_tests_cant": "All pairs of keys; that no sixth coordinate exists, on the curve or on its twist, needs the orders of both groups.", "anchors": ["tweetnacl/tweetnacl.c:394-443", "tweetnacl/tweetnacl.c:458-463"]}
{"id": "C79", "title": "crypto_box round trip", "statement": "What crypto_box encrypts with the key of the receiver and the secret of the sender, crypto_box_open decrypts with the key of the sender and the secret of the receiver.", "quantifier": "for every pair of secret keys, nonce and message", "why_tests_cant": "All keys and lengths.", "anchors": ["tweetnacl/tweetnacl.c:445-487"]}
{"id": "C80", "title": "crypto_box_keypair", "statement": "Exactly one draw of 32 random bytes; if it fails -1 is returned and the public key is not written (the secret key buffer then holds whatever the failed source left in it), otherwise the secret key is what was drawn and the public key is X25519 of it and 9.", "quantifier": "for every behaviour of the random source", "why_tests_cant": "Failing random sources are hard to test.", "anchors": ["tweetnacl/tweetnacl.c:450-456"]}
{"id": "C81", "title": "The WebAssembly dp_sign and its size cell", "statement": "With eight writable bytes behind smlen, dp_sign makes exactly the compact signatures of the specification and changes nothing else; with fewer (the parameter is declared size_t *, four bytes on wasm32) no call returns 0, and every call for which the specification has a signature is undefined: it writes eight bytes.", "quantifier": "for every message of 1 to 64 bytes, every secret key, every memory and every behaviour of the random source; the signature buffer does not overlap the message", "why_tests_cant": "The JavaScript wrapper allocates eight bytes, so its tests never meet the four-byte object that the declaration promises.", "anchors": ["wasm/hybrid-pqc.c:39-42", "hybrid-dilithium-sphincs/hybrid.c:468-564"]}
{"id": "C82", "title": "The WebAssembly mem_alloc and mem_free", "statement": "mem_alloc returns NULL or a new block and changes no other block. mem_free overwrites the first size bytes with zeros, gives the block back and changes no other block; it is undefined for NULL (even with size 0), for a size beyond the block, inside a block, and for a block that is not allocated or was freed before. A block freed with the size it was allocated with holds only zeros at that time.", "quantifier": "for every heap, every pointer, every size and every allocator", "why_tests_cant": "Undefined behaviour rarely shows up in a test, and the allocator is arbitrary.", "anchors": ["wasm/hybrid-pqc.c:13-27"]}
{"id": "C83", "title": "The WebAssembly key generation, seed expander and a session", "statement": "dp_sign_keypair_seed and dp_sign_keypair leave the keys of the specification for the given or drawn seed in the buffers pk and sk and change nothing else; dp_sign_seedexpander writes the expansion of C18. Signatures that dp_sign makes with keys from these exports are accepted by dp_sign_verify, wherever the bytes lie, and verification changes nothing.", "quantifier": "for every generated key pair, message, memory and random source; output buffers overlap neither each other nor the seed to be expanded or the message to be signed", "why_tests_cant": "All keys, messages and memories.", "anchors": ["wasm/hybrid-pqc.c:29-52"]}
{"id": "C84", "title": "The WebAssembly dp_seedexpander_wrapper and dp_randombytes", "statement": "dp_seedexpander_wrapper returns -1, -2 or -3 without reading or writing memory when a pointer is NULL, the seed is shorter than 32 bytes or the output is not longer than the seed, and otherwise writes SHAKE256(seed || 2) and returns 0. dp_randombytes makes one draw and writes it, or returns nonzero, and then nothing but the buffer is changed (it holds whatever the failed source left in it).", "quantifier": "for all pointers, lengths, memories and random sources", "why_tests_cant": "All lengths and contents.", "anchors": ["wasm/hybrid-pqc.c:54-62", "common/shake_prng.c:67-83"]}
{"id": "C85", "title": "Keccak contexts on the heap", "statement": "shake128, shake256, seedexpander_wrapper and an incremental SHA-3 session call malloc once, stop with exit(111) exactly if that call fails, otherwise give the result of the computation without a heap, and leave the same blocks allocated with the same contents as before. Argument checks of seedexpander_wrapper come before the allocation. A cloned context is independent of the original; no operation touches another context; any use of a context after its release, and a second release, is undefined (for cloning, unless the allocation of the clone fails and stops the program first).", "quantifier": "for every heap with contexts in use, every pattern of malloc failures, all lengths and all bytes", "why_tests_cant": "Allocation failure at every call, leaks and double frees do not show in a run that compares outputs.", "anchors": ["common/fips202.c:525-904", "common/shake_prng.c:9-83"]}
{"id": "C86", "title": "Dilithium and SPHINCS+ release every Keccak context", "statement": "Dilithium key generation, signing (through any number of rejections) and verification, every sampler below them, and the four hash functions of SPHINCS+ use a number of contexts that does not depend on the heap, one at a time released on every path: they stop with exit(111) exactly if one of these allocations fails, otherwise they give the result of the model without a heap, with the same blocks allocated afterwards as before. gen_message_random and hash_message, call by call on the incremental interface, are SHAKE256 of the concatenation.", "quantifier": "for every heap, every pattern of malloc failures, every key, message, signature and seed", "why_tests_cant": "A context leaked on a rarely taken path (rejected signature, extra sampling round) or an unchecked allocation is not seen by output comparison.", "anchors": ["dilithium2/poly.c:350-515", "dilithium2/sign.c:22-332", "sphincs/hash_shake.c:14-82", "sphincs/thash_shake_simple.c:15-24"]}
{"id": "C87", "title": "The wait for entropy and the files of the /dev/urandom variant", "statement": "randombytes over /dev/urandom returns 0 only after an entropy count of at least 128 bits was read in the same call; then the buffer holds the bytes read, and every file it opened is closed. Otherwise it returns -1; the bytes behind those read are unchanged; if /dev/urandom could be opened it stays open, and the entropy count file of /proc stays open when /dev/random cannot be opened. It has no undefined behaviour unless fclose is interrupted; in that case it calls fclose twice on one stream, which is undefined. A count of at least 128 bits from the first ioctl ends the wait with success, and an ioctl error other than ENOTTY or ENOSYS ends it with -1, both without any further call; only after one of those two errors the entropy count file of /proc is opened, and if that fails the wait ends with -1.", "quantifier": "for every operating system, whose answers may depend on the whole history of calls, every schedule of interruptions, every request and buffer", "why_tests_cant": "The paths depend on answers of the operating system that a test cannot provoke (interrupted calls, missing ioctl, exhausted entropy).", "anchors": ["random/randombytes.c:163-304"]}
{"id": "C88", "title": "The Windows random source", "statement": "If randombytes returns 0 on Windows, all requested bytes come from one of the two generators of the system. (True below 2^32 bytes; false from there on: the length is cut to 32 bits and the rest of the buffer is zero.)", "quantifier": "for all behaviours of the Windows functions, all requests and buffers", "why_tests_cant": "The failing requests are 4 GiB long and up, the fallback is taken only when the first generator fails.", "anchors": ["random/randombytes.c:83-122"]}
{"id": "C89", "title": "The random sources of JavaScript, WASI and BSD", "statement": "With arc4random_buf the request always succeeds with its bytes. In JavaScript the result is 0 with the bytes of the chosen source in the buffer, or the buffer is unchanged and the result is -1 or, if the browser's source failed, an exception passes through the C code. errno becomes EINVAL when the source of Node fails, ENOSYS when there is none, and is left alone otherwise.", "quantifier": "for every environment, request and buffer", "why_tests_cant": "All environments, including those without a generator.", "anchors": ["random/randombytes.c:126-129", "random/randombytes.c:309-354"]}
{"id": "C90", "title": "Forgeries of the hybrid scheme are forgeries of its components", "statement": "Take any session of a client with the two signing functions under one key pair, and any buffer that verification then accepts for a message. Full mode: if no full signature of the message was asked, the buffer holds a SPHINCS+ signature that is valid for a message the SPHINCS+ key never signed, and likewise for Ed25519 and for Dilithium unless the message is the hash signed in answer to a compact query. Compact mode: if no compact signature of the message was asked, the buffer holds valid signatures of Ed25519 and of Dilithium of a string that neither key ever signed, unless a full signature of that very string was asked or two different strings with the same SHA3-512 value are at hand. In a session each component key is used exactly on the strings counted here.", "quantifier": "for every sequence of signing calls, in any order and with any messages, random bytes and memory changes in between, every buffer, every message and every generated key pair", "why_tests_cant": "It is a statement about all adversaries: no run of tests tries all strategies of querying and forging.", "anchors": ["hybrid-dilithium-sphincs/hybrid.c:259-344", "hybrid-dilithium-sphincs/hybrid.c:439-466", "hybrid-dilithium-sphincs/hybrid.c:468-564", "hybrid-dilithium-sphincs/hybrid.c:669-696"]}
{"id": "C91", "title": "Ed25519 has no branch and no address that depends on a secret", "statement": "For key generation from a seed, for signing and for SHA-512, the sequence of all array indices read and written and of the outcomes of all conditions is the same for all keys, nonces and messages; it depends only on the length of the message. The result of the traced run is the specified one.", "quantifier": "for every seed, secret key and message of any length below 2^63", "why_tests_cant": "Equality of two runs for all pairs of secrets: a test compares the timing of a few runs at most.", "anchors": ["tweetnacl/tweetnacl.c:267-392", "tweetnacl/tweetnacl.c:489-588", "tweetnacl/tweetnacl.c:590-757"]}
{"id": "C92", "title": "X25519, XSalsa20, Poly1305 and the boxes show only lengths and whether the tag is right", "statement": "The sequence of all indices and condition outcomes of crypto_scalarmult, crypto_scalarmult_base, crypto_verify_16, crypto_verify_32, crypto_stream, crypto_stream_xor, crypto_onetimeauth, crypto_onetimeauth_verify, crypto_secretbox and crypto_box depends only on the lengths; opening a secretbox or a box shows in addition only whether the tag was accepted. The result of the traced run is the specified one.", "quantifier": "for every key, nonce, message, point and ciphertext", "why_tests_cant": "Equality of two runs for all pairs of secrets: a test compares the timing of a few runs at most.", "anchors": ["tweetnacl/tweetnacl.c:54-265", "tweetnacl/tweetnacl.c:267-380", "tweetnacl/tweetnacl.c:394-487"]}
{"id": "C93", "title": "Keccak shows only lengths", "statement": "The sequence of all indices and condition outcomes of SHAKE128, SHAKE256, SHA3-256, SHA3-384, SHA3-512, of any use of the incremental interface and of the seed expander depends only on the lengths of the inputs, of the outputs and of the pieces. The results are those of FIPS 202.", "quantifier": "for every input, seed, cut into pieces and output buffer", "why_tests_cant": "Equality of two runs for all pairs of secrets: a test compares the timing of a few runs at most.", "anchors": ["common/fips202.c:20-33", "common/fips202.c:61-331", "common/fips202.c:347-420", "common/fips202.c:440-523", "common/fips202.c:700-928", "common/shake_prng.c:19-83"]}
{"id": "C94", "title": "SPHINCS+ key generation shows nothing, signing shows only what the signature shows", "statement": "The sequence of all indices and condition outcomes of SPHINCS+ key generation from a seed (down to the Keccak permutation) is one fixed sequence, the same for all seeds. That of signing is a function of the public key, the message and the signature that comes out: whoever sees control flow and addresses learns no more about the secret key than whoever sees the signature. The results are those of the specification.", "quantifier": "for every seed, secret key, message, random string and buffer", "why_tests_cant": "Equality of two runs for all pairs of secrets; key generation and signing hash thousands of times, with indices that depend on the data signed on each layer.", "anchors": ["sphincs/sign.c:50-160", "sphincs/merkle.c:18-59", "sphincs/wots.c:45-88", "sphincs/wotsx1.c:18-76", "sphincs/utilsx1.c:24-100", "sphincs/fors.c:13-109", "sphincs/hash_shake.c:14-82", "sphincs/thash_shake_simple.c:15-24"]}
{"id": "C95", "title": "What Dilithium key generation and signing show: the public key, the signature and the places of rejections", "statement": "The sequence of all indices and condition outcomes of Dilithium key generation (down to the Keccak permutation) is a function of the public seed rho and of which half bytes of the eight secret streams are used or rejected; the values of the secret coefficients do not enter. That of the norm check is a function of the bound and of the place of the first coefficient that violates it: not of its sign, not of any other coefficient (the requirement written at dilithium2/poly.c:281-283). That of signing is a function of rho, the message length and, per attempt, the challenge hash, the place of the first violating coefficient of z, r0 or c t0 and, if all three are within their bounds, for each hint which condition of make_hint decides. For generated keys the accepted attempt shows nothing beyond public key and signature, so the sequence is a function of public key, message length, signature and what the rejected attempts show.", "quantifier": "for every seed, every 2560 bytes as secret key (last clause: every generated key), message, buffer and bound on the rejection loops within which the call ends", "why_tests_cant": "Equality of two runs for all pairs of secrets; rejections are rare per position and the relation between hints, signature and public key is algebraic.", "anchors": ["dilithium2/sign.c:23-68", "dilithium2/sign.c:113-210", "dilithium2/poly.c:270-296", "dilithium2/poly.c:385-444", "dilithium2/poly.c:480-515", "dilithium2/polyvec.c:16-24", "dilithium2/rounding.c:38-68", "dilithium2/ntt.c:50-98", "dilithium2/packing.c:15-130"]}
{"id": "C96", "title": "An accepted SPHINCS+ signature that was not made with the secret key breaks the hash function or reuses FORS values", "statement": "Let a key pair be generated, let qs be any messages with the signatures that the signing code made for them, and let verification accept sig for m. Then (1) one of the at most 17521 strings that verification of sig hashes differs from the string hashed at the same address in the trees of the key pair, has the same length and the same hash value, or (2) sig contains, in the part of one of the 17 one-time keys that its digest selects, a chain value that lies before the one this one-time key gives out in all signatures, or sig is byte for byte what the signing code makes with the randomiser in its first 32 bytes, and then (3) sig contains a FORS secret value at a leaf which no signature in qs has opened, or (4) all 35 FORS leaves that the digest of (m, sig) selects have been opened in qs. A signature that the code makes gives out exactly the 35 selected FORS secret values and, on the 17 one-time keys that its digest selects, the chain values of the string which this one-time key signs always. The same holds in a session with the functions of the hybrid scheme for the SPHINCS+ part of every accepted full signature of a message for which no full signature was asked.", "quantifier": "for every seed, message, list of signed messages, and every string that verification accepts", "why_tests_cant": "Statement about all strings an adversary may submit; a forgery cannot be found by testing, so tests only see rejection of damaged signatures.", "anchors": ["sphincs/sign.c:50-98", "sphincs/sign.c:100-160", "sphincs/sign.c:169-240", "sphincs/wots.c:31-88", "sphincs/fors.c:66-156", "sphincs/utils.c:64-98", "sphincs/hash_shake.c:50-82", "hybrid-dilithium-sphincs/hybrid.c:259-344"]}
{"id": "C97", "title": "What an accepted Dilithium2 signature contains", "statement": "Whatever crypto_sign_verify of Dilithium2 accepts is a solution of the SelfTargetMSIS problem for the public key: a vector z with coefficients below gamma1 - beta, a challenge polynomial c with exactly 39 coefficients 1 or -1 made from the challenge hash, a vector u with coefficients at most 2 gamma2 + 1 (at most gamma2 where the hint is 0), hints with at most 80 ones, and a vector w1 with entries 0..43 such that A z - 2^13 c t1 + u = 2 gamma2 w1 in the ring and SHAKE256 of mu and the packed w1 is the challenge hash in the signature. Two such solutions with one w1 give a relation A z - 2^13 c t1 + u = 0 with doubled bounds, nonzero when z or c differ. Two accepted signatures with one challenge hash are the same signature of the same message, or the two strings hashed to the message representatives, or those hashed to the challenges, are a collision of SHAKE256, or the difference of their vectors z is a short nonzero vector with A z + u = 0 (u the difference of the errors).", "quantifier": "For all public keys of 1312 bytes, all strings of 2420 bytes accepted as signatures, all messages, and all pairs of these.", "why_tests_cant": "The statement is about every string that verification accepts, including ones no signer made; tests can only run signatures that somebody can produce.", "anchors": ["dilithium2/sign.c:257-328", "dilithium2/packing.c:214-260", "dilithium2/rounding.c:80-98"]}
{"id": "C98", "title": "Accepted Ed25519 signatures, equal nonces and the order of the base point", "statement": "The constant L of tweetnacl is the exact order of the base point (a prime). Under a generated public key a signed message is accepted exactly when its first 32 bytes encode r B for some r < L and S = r + h a modulo L (h the hash of R, public key and message, a the secret scalar). Two accepted signed messages with the same first 32 bytes either have hash values equal modulo L and then S is equal modulo L, or the secret scalar modulo L is (S - S')/(h - h'), which everybody can compute. Signing gives equal first 32 bytes for two messages exactly when the nonce hashes over secret prefix and message agree modulo L. Two seeds have the same public key exactly when their scalars agree modulo L, which is exactly when bits 3 to 253 of their SHA-512 values agree, so the 2^251 scalars that clamping leaves give different keys.", "quantifier": "For all seeds, all signed messages below 2^31 bytes that are accepted, and all pairs of these.", "why_tests_cant": "An equivalence over all 2^512 signature strings and the order of a group of 2^252 elements; no test can enumerate them.", "anchors": ["tweetnacl/tweetnacl.c:658-678", "tweetnacl/tweetnacl.c:692-692", "tweetnacl/tweetnacl.c:728-825"]}
{"id": "C99", "title": "The second tree hash function", "statement": "The function treehash of sphincs/utils.c (exported, called nowhere) returns for every tree height from 1 to 30, every offset and every leaf index below 2^height the root and the authentication path of the hash tree over the leaves its callback delivers; treehashx1 over the same leaves gives the same root and path, and compute_root along the path gives the root. Its stack and height arrays never overflow. For a leaf index from 2^height to 2*2^height - 1, however, it copies the root behind the end of the authentication path, which treehashx1 does not.", "quantifier": "For all tree heights 1..30, offsets, leaf indices, leaf callbacks (which may read the changing address), contents of the uninitialised local arrays.", "why_tests_cant": "No caller exists, so no test reaches the function; the stack discipline has to hold for every number of leaves up to 2^30.", "anchors": ["sphincs/utils.c:100-148", "sphincs/utilsx1.c:24-100"]}
{"id": "C100", "title": "What accepted hybrid signatures contain and how they can be changed", "statement": "Every buffer that full-mode verification accepts under a generated public key consists of an Ed25519 part (R, S) with R = r B for some r < L and S = r + h a modulo L (a the secret scalar), a Dilithium part that is a solution of SelfTargetMSIS for the key, and a SPHINCS+ part that is exactly what the signing code makes with the randomiser in its first 32 bytes, unless verification of it hashes a second preimage or it contains a chain value before the one that the one-time key gives out. Compact mode: the same for the first two parts on the hash of nonce, message and SPHINCS+ key. Two accepted buffers of one message whose parts begin with the same 32 bytes (compact: with the same nonce) are equal except that a multiple of L may be added to S, or their Dilithium parts give an explicit collision of SHAKE256 or an explicit short lattice vector (the difference of the two vectors z), or one of the SPHINCS+ parts breaks the hash function as above.", "quantifier": "For all generated key pairs, all memory states, all buffers that verification accepts and all pairs of these.", "why_tests_cant": "The statement is about all strings that verification accepts, also those nobody can produce today; tests only see signatures made by the signing code.", "anchors": ["hybrid-dilithium-sphincs/hybrid.c:346-466", "hybrid-dilithium-sphincs/hybrid.c:566-696", "dilithium2/sign.c:257-328", "sphincs/sign.c:169-240", "tweetnacl/tweetnacl.c:792-825"]}
{"id": "C101", "title": "Accepted signatures are bound to message and mode up to explicit hash collisions", "statement": "If the three component signatures of an accepted full signature are accepted in another full signature of a different message under the same generated key, then all of these hold: the two SHA-512 values of R, public key and message are equal modulo L; SHAKE256 collides at the two message representatives or at the two challenge inputs of Dilithium; and the two SPHINCS+ digests select the same 35 leaves of the same FORS key, or one value of the signature is the secret value of two leaves, or the SPHINCS+ hash function is broken at a string that verification hashes. If the two component signatures of an accepted compact signature are accepted with another nonce or message, then the two strings (nonce, message, SPHINCS+ key) are a collision of SHA3-512, or both Ed25519 and Dilithium are broken in this sense at the two hash values. If an accepted full signature and an accepted compact signature have the same Ed25519 and Dilithium parts, then the full message is the compact hash value, or both components are broken in this sense at these two strings.", "quantifier": "For all generated keys, memory states, and pairs of accepted buffers.", "why_tests_cant": "Nobody can produce two messages with one signature, so a test cannot look at such a pair; the theorem says what each such pair would have to contain.", "anchors": ["hybrid-dilithium-sphincs/hybrid.c:346-466", "hybrid-dilithium-sphincs/hybrid.c:566-696", "dilithium2/sign.c:285-322", "sphincs/sign.c:169-240", "tweetnacl/tweetnacl.c:792-825"]}
{"id": "C102", "title": "What control flow and addresses of the hybrid functions show", "statement": "The sequence of all array indices and branch decisions of the seed expander is constant. That of key generation is a function of bytes 32 to 63 of the public key (the public Dilithium seed) and of the pattern of accepted half bytes in the secret Dilithium stream; nothing else of the 160 seed bytes influences it, and a failing draw gives a constant sequence. That of full-mode signing, for a secret key with a generated Dilithium part, is a function of public key, message, signature and the challenges and rejection places of the Dilithium attempts that were rejected; if the SPHINCS+ randomness cannot be drawn, of Dilithium public key, message length, Dilithium signature and the rejected attempts. That of compact signing is a function of Dilithium public key, message length, Dilithium signature and the rejected attempts for the signed hash; it is constant if the nonce cannot be drawn. In all cases the traced function computes what the untraced one computes.", "quantifier": "For all memory states, pointers, messages of 1 to 64 bytes, random sources, seeds and secret keys (output buffers do not overlap each other, nor the seed to be expanded or, in compact mode, the message).", "why_tests_cant": "Timing tests sample a few keys on one machine and see noise; they cannot show that no key, seed or random string changes the sequence of accesses and branches.", "anchors": ["hybrid-dilithium-sphincs/hybrid.c:140-344", "hybrid-dilithium-sphincs/hybrid.c:468-564", "tweetnacl/tweetnacl.c:658-758", "dilithium2/sign.c:23-211", "sphincs/sign.c:50-163", "common/fips202.c:915-928", "common/shake_prng.c:67-83"]}
{"id": "C103", "title": "An accepted signature belongs to one public key", "statement": "No buffer is accepted under two different public keys, whoever made the keys, unless a hash function collides at strings that the two verifications hash. (False of the code for the Ed25519 part: from every accepted buffer one gets a buffer with the same Dilithium and SPHINCS+ signatures that is accepted under two different public keys, whose Ed25519 parts are the two encodings of the neutral point. It holds for the Dilithium part: when one Dilithium signature is accepted in two full-mode buffers, the Dilithium public keys and the messages are equal or SHAKE256 collides at the two keys, at the two inputs of the message representative or at the two inputs of the challenge hash. It holds in compact mode for the Dilithium and SPHINCS+ parts, the nonce and the message, where SHA3-512 may collide too.)", "quantifier": "For all pairs of public keys (generated or not), memory states, and pairs of accepted buffers with one Dilithium signature.", "why_tests_cant": "The second key may be any string; tests use generated keys, and a pair of keys for one signature does not come up by chance.", "anchors": ["hybrid-dilithium-sphincs/hybrid.c:346-466", "hybrid-dilithium-sphincs/hybrid.c:566-696", "dilithium2/sign.c:257-328", "tweetnacl/tweetnacl.c:760-825"]}
{"id": "C104", "title": "The exact result of calls with overlapping buffers", "statement": "For every placement of message, signature and key buffers (the length is written last, so its cell is kept apart): open in full mode delivers the signed message; open in compact mode returns 0 exactly for valid buffers and delivers the message if the output begins no later than the embedded message or lies apart from it (so also in place), and otherwise, beginning d bytes inside the message, the first d bytes of the message over and over, which is the message only if it has period d; compact signing signs the message as it was before the call and embeds the forward copy of what lies at the message address after the first 2526 bytes of the output were written; the seed expander may be called in place.", "quantifier": "for every placement of the buffers, all contents, lengths, keys and components", "why_tests_cant": "Tests use separate buffers, and the wrong outputs come with the return value 0.", "anchors": ["hybrid-dilithium-sphincs/hybrid.c:crypto_sign_compact_dilithium_ed25519_sphincs_open", "hybrid-dilithium-sphincs/hybrid.c:crypto_sign_dilithium_ed25519_sphincs_open", "hybrid-dilithium-sphincs/hybrid.c:crypto_sign_compact_dilithium_ed25519_sphincs", "hybrid-dilithium-sphincs/hybrid.c:crypto_sign_dilithium_ed25519_sphincs_keypair_seed_expander"]}
{"id": "C105", "title": "The Dilithium samplers are unbiased", "statement": "Over all byte strings of any fixed length n, every polynomial of the target set is produced from exactly as many strings as every other: rej_uniform over all 256-coefficient polynomials with coefficients in [0, q), rej_eta over those with coefficients in [-2, 2], the mask decoder over those with coefficients in (-2^17, 2^17], and the challenge sampler over all polynomials with 39 coefficients 1 or -1 and the rest 0. Nothing outside the target set is produced, and everything in it is produced once n is at least 768, 128, 576 and 47 bytes. The functions that fetch their bytes from SHAKE return what these samplers give on the SHAKE streams, with any number of refills.", "quantifier": "for every string length, every polynomial of the target sets, every prior content of the output, every seed and nonce", "why_tests_cant": "The sets have up to 8380417^256 elements and the claim is an equality of counts; statistical tests see samples only and do not notice a bias of, say, one coefficient in 2^23.", "anchors": ["dilithium2/poly.c:311-333", "dilithium2/poly.c:347-370", "dilithium2/poly.c:387-412", "dilithium2/poly.c:425-445", "dilithium2/poly.c:452-466", "dilithium2/poly.c:480-515", "dilithium2/poly.c:790-822"]}
{"id": "C106", "title": "A released Dilithium signature depends on the secret vectors only through t", "statement": "For secret vectors s1, s2 with coefficients in [-2, 2], a matrix A, t = A s1 + s2 and a challenge c with 39 coefficients 1 or -1, look at one attempt of signing with a masking vector y: the commitment (high parts of A y), the response z, the hints, and whether the four rejection tests of the code let them out. A transcript (commitment, response, hints) is let out for exactly one masking vector if a simulator that has only A, t and c accepts z and computes this commitment and these hints from A z - c t, and for none otherwise. So two pairs of secret vectors with the same t release every transcript for equally many masking vectors, and the number of masking vectors that are released is the number of responses that the simulator accepts. A signature that the code makes under a generated key is such a simulator output, with the challenge hashed from the simulator's commitment.", "quantifier": "for every matrix, every t, all pairs of secret vectors in range, every challenge in range, every transcript, every masking vector in range; for the code, every seed, message and prior buffer content", "why_tests_cant": "The claim compares the sets of masking vectors, each out of 2^18432, for different secrets; a weaker bound in a rejection test (say GAMMA1 in place of GAMMA1 - BETA) leaves all signatures valid and all tests green and leaks the secret key slowly.", "anchors": ["dilithium2/sign.c:149-211", "dilithium2/sign.c:23-68", "dilithium2/params.h:13-20", "dilithium2/polyvec.c:148-158", "dilithium2/polyvec.c:310-320", "dilithium2/poly.c:270-296"]}
{"id": "C107", "title": "Hash values spread evenly over FORS leaves, one-time keys and scalars", "statement": "SPHINCS+: for every choice of 35 FORS indices below 512, a tree below 2^64 and a leaf below 16, exactly 512 of the values that the 49 hash bytes can have lead hash_message and message_to_indices to this choice. Ed25519: reduce leads to the scalar v below L for exactly (2^512 - 1 - v) / L + 1 of the 64-byte strings, so these numbers differ by at most 1 for different scalars and are at least 2^259; clamping leads to each of the 2^251 scalars 2^254 + 8 k for exactly 32 values of the first 32 bytes, to no other scalar, and keeps the last 32 bytes.", "quantifier": "for every choice of indices, tree and leaf, every scalar below L, every k below 2^251, every value of the remaining bytes", "why_tests_cant": "The claim counts preimages among 2^392, 2^512 and 2^256 strings; a wrong shift or mask that makes two of the 9-bit indices share bits, or never reaches some trees, keeps signing and verification in step, so round-trip tests stay green while far fewer signatures suffice for a forgery.", "anchors": ["sphincs/hash_shake.c:50-82", "sphincs/fors.c:49-60", "tweetnacl/tweetnacl.c:720-726", "tweetnacl/tweetnacl.c:669-671", "tweetnacl/tweetnacl.c:734-736"]}
{"id": "C108", "title": "Verification does not examine the public key: there are keys under which everybody can sign in compact mode", "statement": "Let a public key consist of the neutral point of Ed25519, a Dilithium key with any 32-byte rho and t1 = 0, and any 64-byte SPHINCS+ key. For every message of 1 to 64 bytes and every 40-byte nonce, the buffer that holds the Ed25519 signature R = neutral, S = 0, the Dilithium signature with z = 0, no hints and the challenge SHAKE256(mu || 768 zero bytes), the nonce and the message is accepted by compact verification; all of it is computed from the public key alone. In full mode the corresponding buffer with some 49856-byte SPHINCS+ part is accepted if and only if the SPHINCS+ part is a valid signature of the message. At least one such key and buffer exist.", "quantifier": "for every rho, SPHINCS+ key, message and nonce for which the rejection loops that expand rho and the challenge end; for the whole of the C code", "why_tests_cant": "Tests use keys from key generation, which never have this form; that such a key is accepted for all 2^512 messages is a statement about all runs.", "anchors": ["hybrid-dilithium-sphincs/hybrid.c:669-696", "hybrid-dilithium-sphincs/hybrid.c:439-466", "dilithium2/sign.c:286-321", "tweetnacl/tweetnacl.c:760-825"]}
{"id": "C109", "title": "Poly1305 is an almost universal one-time authenticator", "statement": "For every message and every 16-byte tag, exactly 2^128 of the 2^256 keys lead crypto_onetimeauth to this tag, one for each first half of the key. For two different messages and any two tags, at most 2^22 * 8 q keys lead crypto_onetimeauth to both tags (or crypto_onetimeauth_verify to accept both), where q is the number of 16-byte chunks of the longer message; so a forgery after one known tag succeeds with probability at most 8 q / 2^106 over the remaining keys.", "quantifier": "for every pair of different messages of any lengths, every pair of tags", "why_tests_cant": "The claim counts keys among 2^256 and needs that 2^130 - 5 is prime and that different messages give different polynomials. A chunk without its final one byte, or a wrong clamp, gives an authenticator that agrees with itself in every test and can be forged.", "anchors": ["tweetnacl/tweetnacl.c:185-236", "tweetnacl/tweetnacl.c:238-243"]}
{"id": "C110", "title": "The Keccak permutation is a bijection, and equal absorbed states contain an inner collision", "statement": "Every state of 25 words is the result of KeccakF1600_StatePermute for exactly one state. If two different inputs, or one input under the SHAKE and the SHA-3 suffix, lead keccak_absorb to the same state, then there are two different sequences of whole blocks at the beginning of the two inputs after which the states agree in all words behind the rate (an inner collision). In particular inputs shorter than the rate lead to different states, and seedexpander_init gives different states for different seeds of at most 134 bytes; for longer seeds equal states give an inner collision.", "quantifier": "for every state, every pair of inputs of any lengths, rates 168, 136, 104 and 72", "why_tests_cant": "Bijectivity speaks about all 2^1600 states; a permutation with a wrong mask in theta or chi that merges states loses entropy from every seed, and no test vector near it would show how much.", "anchors": ["common/fips202.c:KeccakF1600_StatePermute", "common/fips202.c:keccak_absorb", "common/fips202.c:keccak_inc_absorb", "common/shake_prng.c:seedexpander_init"]}
{"id": "C111", "title": "The Ed25519 group has 8 L elements; which strings are public keys, which of them have small order, and acceptance under any key", "statement": "The curve of tweetnacl has exactly 8 L points, and every point is in exactly one way j T + a B with j < 8, a < L, T a fixed point of order 8 and B the base point. Of the 2^256 strings of 32 bytes the code takes exactly 8 L + 26 as public key, 26 more than there are points. A string stands for a point of order 1, 2, 4 or 8 exactly when its low 255 bits are one of 0, 1, p-1, p, p+1 and two explicit numbers. A generated public key has the exact order L and is never one of these. A signed message is accepted under a string that stands for j T + a B exactly when, with h the hash of R, the string and the message, R encodes -h j T + r B and S = r + h a modulo L for some r < L.", "quantifier": "for all 32-byte strings as public key, all signed messages below 2^31 bytes and all seeds", "why_tests_cant": "The group has about 2^255 elements; that no further public key of small order exists, and how many strings are accepted, cannot be found by trying.", "anchors": ["tweetnacl/tweetnacl.c:590-692", "tweetnacl/tweetnacl.c:760-825"]}
{"id": "C112", "title": "When two X25519 secret keys give the same result, and how many public keys there are", "statement": "For a public key that is not one of the five of C78, crypto_scalarmult gives the same result for two secret keys exactly when their scalars are equal or add up to 8 r, where r is 2^252 + 27742317777372353535851937790883648493 if the coordinate belongs to a point of the curve over the field and 2^253 - 55484635554744707071703875581767296995 if it belongs to the twist. The base point is of the first kind. A public key of crypto_scalarmult_base therefore has exactly 32 secret keys, or 64 if the scalar is at most 2^254 + 8 * 27742317777372353535851937790883648493, and exactly 2^251 - 13871158888686176767925968895441824247 strings are public keys.", "quantifier": "for all secret keys and public keys of 32 bytes", "why_tests_cant": "There are 2^256 secret keys; that two of them never collide except in the stated pairs, on the curve and on the twist, cannot be tried out.", "anchors": ["tweetnacl/tweetnacl.c:394-443", "tweetnacl/tweetnacl.c:445-448"]}
{"id": "C113", "title": "Key pairs made from an expanded seed", "statement": "When a 96-byte seed is expanded with the seed expander and the 160 result bytes are given to seeded key generation (the documented use), then: the Dilithium key pair is the one of the specification for seed bytes 64 to 95 directly, independent of the hash; the Ed25519 key and the SPHINCS+ secret seed and PRF key are bytes 0-31 and 32-95 of SHAKE256 of the 64 effective bytes followed by the byte 2, and bytes 96-127 of that output stand in clear at positions 1344-1375 of the public key. The seed bytes at odd positions below 64 have no effect on either key: every key pair so made comes from at least 2^256 seeds, and at most 2^512 key pairs exist in all, although the seed has 768 bits.", "quantifier": "all 96-byte seeds, all worlds (memory layouts with the buffers readable and writable, expansion buffer apart from the seed, pk apart from sk), all fuels that suffice", "why_tests_cant": "The claim compares the results for 2^256 seeds and bounds the number of key pairs over all 2^768 seeds; a test sees single seeds.", "anchors": ["hybrid-dilithium-sphincs/hybrid.c:122-172", "hybrid-dilithium-sphincs/hybrid.c:174-245"]}
{"id": "C114", "title": "The number of hash contexts is fixed by the scheme", "statement": "Every hash context that the component schemes allocate is released again, and how many they allocate is known: SPHINCS+ key generation from a seed makes exactly 17183 of them and SPHINCS+ signing exactly 345874, whatever the key, the message and the randomness; SPHINCS+ verification makes none for a wrong length and otherwise exactly 437 plus one for every hash value that completes the 67 chains of each of the 17 one-time signatures (the sum of 15 minus each base-16 digit of the string that layer signs, checksum digits included), which lies between 1202 and 17267 in all and depends only on signature, message and public key, and opening a signed message makes exactly those of the verification of its message, or none if it is shorter than a signature; Dilithium key generation makes 26, signing 18 and 6 more per attempt (so 24 + 6k after k rejections), verification 20, or none for a string that fails the checks of length, encoding or size of z. If one of exactly these allocations fails the process ends with exit(111); if none fails the result is the one of the specification and the heap is as before.", "quantifier": "all inputs of the right lengths, all states of the heap and all patterns of failing allocations, all runs of Dilithium that complete", "why_tests_cant": "A run shows the count for one key and message and one pattern of failures; that the count is the same for all keys and messages, so that the allocations do not tell SPHINCS+ keys or messages apart, is a statement about all of them.", "anchors": ["sphincs/sign.c:50-75", "sphincs/sign.c:96-163", "sphincs/sign.c:168-247", "sphincs/sign.c:268-289", "sphincs/utilsx1.c:24-100", "sphincs/wotsx1.c:18-76", "dilithium2/sign.c:23-68", "dilithium2/sign.c:108-211", "dilithium2/sign.c:257-328", "common/fips202.c:530-755"]}
{"id": "C115", "title": "The structure of SHA-512: collisions, continuation and fixed points", "statement": "If crypto_hash of tweetnacl gives one value for two different messages, then in the two padded messages there are blocks, equally far from the end, at which one step of crypto_hashblocks maps two different pairs of chain value and block to the same chain value: the places and the pairs are explicit, and everything after them is equal. Who knows the hash of a message and its length, but not the message, can compute with crypto_hashblocks the hash of the message followed by its padding and any further string. For every block the eighty rounds are a bijection of the 2^512 states, and for every block there is exactly one chain value that crypto_hashblocks leaves as it is.", "quantifier": "all messages below 2^64 bytes, all continuations, all blocks of 128 bytes", "why_tests_cant": "No two messages with the same SHA-512 value are known, so no test reaches the case; that the length in the padding and the order of the blocks leave no other way to a collision, and that each of 2^1024 blocks has one fixed point among 2^512 chain values, are statements about all inputs.", "anchors": ["tweetnacl/tweetnacl.c:489-495", "tweetnacl/tweetnacl.c:521-551", "tweetnacl/tweetnacl.c:553-562", "tweetnacl/tweetnacl.c:564-588"]}
{"id": "C116", "title": "The structure of Salsa20: bijective rounds, the need for the constants, and HSalsa20 from Salsa20", "statement": "The twenty rounds of the Salsa20 core are a bijection of the sixteen words. crypto_core_salsa20 with any sixteen bytes as constants computes the Salsa20 hash function of constants, key and input in their places. Changing the top bits of all sixteen words (constants, key and input) never changes the block that crypto_core_salsa20 gives, so that without the fixed constants every input would collide with another one. The subkey that crypto_core_hsalsa20 computes is what everybody can compute from the block of crypto_core_salsa20 for the same key and input, without the key: the words at the places of constants and input, minus these.", "quantifier": "all keys, inputs and constants, every width of unsigned long from 32 bits on", "why_tests_cant": "A test compares single blocks with published ones; the symmetry of the core under the top bits and the relation between the two core functions hold for all 2^384 keys and inputs, and a bijection of 2^512 states cannot be enumerated.", "anchors": ["tweetnacl/tweetnacl.c:25-33", "tweetnacl/tweetnacl.c:71-109", "tweetnacl/tweetnacl.c:111-121"]}
{"id": "C117", "title": "Which bytes of the composite secret key the signing functions use", "statement": "Compact signing behaves the same, as its caller sees it (result code, signature buffer, length, random source), whatever stands in bytes 2624 to 3999 of the secret key: the copy of the Dilithium public key and the two SPHINCS+ secrets. Full signing behaves the same whatever stands in bytes 2624 to 3935, the copy of the Dilithium public key. So a key that shares with a generated public key only the Ed25519 and Dilithium keys and the copy of the SPHINCS+ public key makes compact signatures that verify: compact mode proves nothing about the SPHINCS+ secrets.", "quantifier": "all component algorithms of the right sizes, all worlds and pointers with disjoint buffers, all messages of 1 to 64 bytes, all pairs of secret keys that agree on the other bytes; for the consequence the real component code, all such key pairs and all runs", "why_tests_cant": "A test changes a few bytes of one key; it cannot vary 1376 bytes over all values, nor show that no input makes the code look at them.", "anchors": ["hybrid-dilithium-sphincs/hybrid.c:259-344", "hybrid-dilithium-sphincs/hybrid.c:468-564", "hybrid-dilithium-sphincs/hybrid.c:669-696", "hybrid-dilithium-sphincs/hybrid.c:174-245"]}
{"id": "C118", "title": "The hybrid functions on the heap: contexts released, counted, and when the process ends", "statement": "Every function of hybrid.c, run with the Keccak contexts of its components on the heap (malloc may fail at any call), behaves as follows. There is a number N, which does not depend on the heap, such that the process ends with exit(111) if one of the next N calls of malloc fails; otherwise the call does exactly what it does with contexts passed as values and leaves the heap as it found it (every context it made is released, no other is touched). N is: 17209 for seeded and random key generation (0 if a pointer is NULL or the random source fails, result -1); 1 for the seed expander; 24 + 6k + 345874 for full signing that returns 0, where k is the number of attempts Dilithium rejects for this key and message, 24 + 6k if the random source fails (result -4); 24 + 6k for compact signing, k being the number for the hash of nonce, message and SPHINCS+ public key, 0 if the random source fails; 0 for opening that fails before the Dilithium part (results -1 to -6 full, -1 to -7 compact), 0 or 20 if the Dilithium part is refused, 20 for compact opening that returns 0, 1222 to 17287 for full opening that reaches SPHINCS+; the same for the verify functions; 0 or 20 for verification of a single Dilithium signature. Signing and key generation return no other codes.", "quantifier": "for all pointers (NULL included), contents of memory and of the random source, message and signature lengths, all well-formed heaps and all patterns of malloc failure; for signing, all memories in which message and secret key are readable", "why_tests_cant": "A test sees one heap and never a failing malloc; the count depends on the rejections of Dilithium and on the digits of a hash, and a leak of one context in one error path shows only after millions of calls.", "anchors": ["hybrid-dilithium-sphincs/hybrid.c:140-711", "common/fips202.c:525-904", "dilithium2/sign.c:23-328", "sphincs/sign.c:50-247"]}
{"id": "C119", "title": "What signatures made with one secret key share; no one-time key signs two strings", "statement": "Take any sessions of signing calls with one composite secret key, with any messages, any memory contents and any answers of the random source. (1) Repeated full signatures of one message agree in all bytes before the SPHINCS+ signature, and agree altogether if the 32-byte randomiser is the same. (2) A compact signature is determined by the message and the nonce inside it. (3) In every full signature the 2272 bytes of each of the 17 layers are the signature, by the one-time key at the place that the message digest gives, of a string that depends on the secret key and that place alone: no one-time key of SPHINCS+ ever signs two different strings. (4) Two full signatures whose ways to the root meet on layer i are equal from there on, so from layer i on at most 16^(17-i) different values occur, and among any seventeen full signatures two end with the same 2272 bytes. (5) Two signatures that use the same FORS key and the same leaf of one of its trees have the same 320 bytes there.", "quantifier": "all secret keys, sessions, messages, random sources and memory contents", "why_tests_cant": "The reuse of a one-time key for two strings is what a stateless signature must never do; it concerns 2^68 keys per key pair and pairs of signatures that no test will ever hit.", "anchors": ["sphincs/sign.c:96-163", "sphincs/merkle.c:18-42", "sphincs/fors.c:66-109", "hybrid-dilithium-sphincs/hybrid.c:259-344", "hybrid-dilithium-sphincs/hybrid.c:468-564"]}
{"id": "C120", "title": "What a composite secret key gives away when its copies do not belong together", "statement": "The composite secret key repeats public values (the Ed25519 public key in bytes 32-63, the seed of the Dilithium matrix in bytes 64-95, the SPHINCS+ root), and signing never checks them. (1) If two secret keys share the first 32 bytes and each makes a full signature of one message, the two Ed25519 parts have the same R, and S - S' = (h - h') a modulo L, where h and h' are the hashes over R, the two copies and the message and a is the secret scalar: whenever h and h' differ, a modulo L is (S - S') / (h - h'), computed from the signatures and the copies alone. (2) Whoever knows a modulo L makes valid Ed25519 signatures of every message under the public key. (3) If two secret keys share bytes 96-575 (mask key, hash of the public key, s1) and differ anywhere else, their Dilithium signatures of one message that come from the same attempt satisfy z - z' = c s1 - c' s1 modulo q in every coefficient, with c and c' the challenges of the two signatures. (4) SPHINCS+ has no such weakness: if the two seeds (bytes 3936-3967 and 4000-4031) agree and everything else differs, signatures whose ways to the root meet on layer i are equal from there on, so no one-time key signs two strings.", "quantifier": "all pairs of secret keys that share the named bytes, all sessions, messages, random sources and memory contents", "why_tests_cant": "Tests sign with keys made by the key generation, whose copies always match; what two signatures under damaged or substituted copies reveal is an algebraic relation about all of them.", "anchors": ["hybrid-dilithium-sphincs/hybrid.c:259-344", "tweetnacl/tweetnacl.c:700-755", "tweetnacl/tweetnacl.c:772-819", "dilithium2/sign.c:92-219", "sphincs/sign.c:96-163"]}
{"id": "C121", "title": "SPHINCS+ signatures hide every secret value that they do not open", "statement": "The hash function is a parameter of the SPHINCS+ code. Take any hash function, any secret key whose PRF key differs from its public seed, any set O of FORS leaves, any 32-byte values for all chain values of all one-time keys (17 layers, 67 chains each) below the digit that the key signs there, and any 32-byte values for the secrets of all FORS leaves outside O. There is a hash function that differs from the given one only in the values of the strings made of the public seed, an address of one of these secrets or chain steps, and the secret seed or the new value, such that under it the secret values are exactly the chosen ones, and key generation gives the same key pair and every signature of every non-empty message that opens leaves in O only is the same byte for byte. So keys and signatures carry no information about unopened secrets beyond the hash values that are published. Every one-time key has at least one chain with something to hide.", "quantifier": "all hash functions with outputs of the requested length, secret keys of 128 bytes, sets of leaves, replacement values, messages, random sources and buffers", "why_tests_cant": "A test sees single signatures under SHAKE256. That two secrets are never hashed at one address, or a secret at the address of a tree node, for any of the 2^68 keys, and that nothing else of the secrets enters a signature, is a statement about all hash functions.", "anchors": ["sphincs/sign.c:50-74", "sphincs/sign.c:96-163", "sphincs/wotsx1.c:18-76", "sphincs/fors.c:13-22", "sphincs/hash_shake.c:14-23", "sphincs/address.c:11-91"]}
{"id": "C122", "title": "Masks of different Dilithium signatures under one key", "statement": "Take any two runs of Dilithium signing that return, with one secret key and any two messages, equal or not. The masking polynomial i of attempt k is made from a 66-byte string: 64 bytes that SHAKE256 gives on (mask key, 32 zero bytes, SHAKE256 of the hash of the public key and the message), then the 16-bit number 4k + i. (1) The response in the bytes of each signature is, modulo q in every coefficient, the challenge of that signature times s1 plus the polynomials made from the four strings of the last attempt. (2) If a string of an attempt of one run, rejected or released, equals a string of the other run, then attempt and polynomial number are the same and either the messages are equal or SHAKE256 collides at the two inputs of the message hashes or at the two inputs of the mask seeds. (3) If nevertheless polynomial i of one released signature and polynomial i' of the other were made from the same 576 bytes, then z_i - z'_i' = c s1_i - c' s1_i' modulo q in every coefficient, an equation in s1 alone.", "quantifier": "all secret keys of 2560 bytes, all pairs of messages, all runs that return, all attempts and polynomial numbers", "why_tests_cant": "Tests sign a few messages and look only at the signatures; they never see the masks, and a reuse between two messages or attempts leaves every signature valid. That no pair of runs shares a string is a statement about all pairs of messages.", "anchors": ["dilithium2/sign.c:92-219", "dilithium2/polyvec.c:46-52", "dilithium2/poly.c:458-468", "dilithium2/symmetric-shake.c:17-26", "dilithium2/packing.c:168-199"]}
{"id": "C123", "title": "Calls that run at the same time do not disturb each other (thread safety)", "statement": "Let any set of threads each make one call of the ten hybrid functions at the same time, so that no call may write a byte that another one may read or write (two calls may share the secret key, the public key, the message or the signature that they only read). The ranges that each function may read and write are those its loops use, and verification writes nothing. Take any interleaving of the single byte reads, byte writes and random draws of the threads, finished or not. (1) A call that has ended gave the return code, or the fault, that the function gives alone from the initial memory with the random bytes this thread got, made that many draws, and left in its output ranges the bytes that it leaves alone. (2) Bytes that no call may write are unchanged. (3) No byte that one thread wrote was read or written by another one: there is no data race. (4) Every draw from the random source went to exactly one thread. (5) Nothing waits: in every infinite schedule in which a thread gets steps again and again, its call ends and stays ended. (6) For full signing, also with one shared key: no thread runs into undefined behaviour, and each one that ended with 0 left in its buffer the signature that the specifications give for its key, its message and its own draw, which no other thread got.", "quantifier": "all sets of threads, all calls and arguments that satisfy the separation, all initial memories, all random sources, all schedules", "why_tests_cant": "A test runs some interleavings that the machine happens to choose; a shared static buffer or a shared state of the random source shows only in rare schedules. The claim is about every schedule of any number of threads.", "anchors": ["hybrid-dilithium-sphincs/hybrid.c:140-711", "sphincs/sign.c:96-163", "random/randombytes.c:358-391"]}
{"id": "C124", "title": "Full open and verify cannot be fooled by changing their inputs during the call", "statement": "Let one thread call crypto_sign_dilithium_ed25519_sphincs_open or crypto_verify_dilithium_ed25519_sphincs while any other threads, with any programs whatever, read and write the caller's memory at any moment, including the signature buffer, the public key, the message and the output buffers, and take any interleaving of the single byte accesses. If open returns 0, there is one signature buffer of the given length and one public key, each byte of which was at its place at some moment of the call, such that the buffer is a full signature of a message under the key by the specifications of Ed25519, Dilithium and SPHINCS+, and the bytes that the call has stored in the caller's memory are exactly that message and its length. If it returns another code it has stored nothing, and at every moment before it returns it has stored only bytes of such a message. If verify returns 0, the message so verified has the length given by the caller and each of its bytes was at its place in the caller's message buffer at some moment of the call; verify never stores anything.", "quantifier": "all initial memories, all programs of all other threads, all interleavings, all pointers and lengths, all fuel", "why_tests_cant": "A test runs the call alone, or with a few threads on a few timings; the claim is about every interleaving with every possible other program. The window between two reads of a byte is nanoseconds wide.", "anchors": ["hybrid-dilithium-sphincs/hybrid.c:346-437", "hybrid-dilithium-sphincs/hybrid.c:439-466"]}
{"id": "C125", "title": "Compact open and verify read the message twice", "statement": "The claim of C124 for compact mode: if compact open returns 0 under arbitrary writers, what it has stored is a message of which some buffer, made of bytes seen in memory during the call, is a compact signature under a key seen during the call, and likewise for verify. This is false of the code: the message is read once for the hash and again from the signature buffer after all checks. For every compact signature that passes the checks and every other message of the same length there is a schedule of the call and one thread that only overwrites the message part of the signature buffer, such that open returns 0 and delivers the other message, and verify accepts the other message; and for a concrete key and signature no buffer and key seen in memory during that run belong to the delivered message. What remains true: if the call returns 0, some signature buffer and key made of bytes seen during the call passed all checks for some message; the delivered bytes are as many as that message has, each of them was in the message part of the buffer at some moment of the call, and their number is what is stored as the length; other return codes store nothing; verify never stores anything.", "quantifier": "all initial memories, all programs of all other threads, all interleavings, all pointers and lengths, all fuel; for the attack: every valid compact signature and every replacement message of the same length", "why_tests_cant": "The window between the two reads is small and no test changes the buffer during the call; with a buffer that does not change both reads agree, so every single-threaded test passes.", "anchors": ["hybrid-dilithium-sphincs/hybrid.c:566-667", "hybrid-dilithium-sphincs/hybrid.c:669-696"]}
{"id": "C126", "title": "Signing reads the message more than once", "statement": "The claim for the signing calls while other threads change the memory: if a signing call returns 0, what it has stored is a signature, made with a secret key seen in memory during the call, of a message seen in memory during the call. This is false of the code in both modes. Compact signing reads the message once for the hash and again to put it into the signature; full signing reads it separately for Ed25519 (together with the copy in the signature), for Dilithium and, twice, for SPHINCS+ (once for the randomiser, once for the digest). For every message, every other message of the same length and every secret key there is a schedule of the call and one thread that only overwrites the message, such that the call returns 0 and leaves, in compact mode, the signatures of the first message's hash together with the second message, and in full mode an Ed25519 signature of the first message, that message, and Dilithium and SPHINCS+ signatures of the second; and with a concrete key what is left is not a signature of any message seen in memory during the run. What remains true: what a call that returns 0 has stored is exactly the wire format of the component signatures of the messages it has read (in compact mode two messages, in full mode four: one for Ed25519 and the copy, one for Dilithium, two for SPHINCS+), each message as long as the caller said and made of bytes that were at the message pointer at some moment of the call, made with a secret key whose used bytes were at the key pointer at some moment, followed by the correct length; a call that returns anything else has stored nothing.", "quantifier": "all initial memories, all programs of all other threads, all interleavings, all pointers and lengths, all fuel, all draws; for the attack: every message, every replacement of the same length, every secret key", "why_tests_cant": "Both reads agree in every single-threaded test, and no test can enumerate the interleavings; that nothing but the message can get mixed up, and nothing is stored on failure, is a statement about all schedules and all other threads.", "anchors": ["hybrid-dilithium-sphincs/hybrid.c:263-344", "hybrid-dilithium-sphincs/hybrid.c:468-564", "tweetnacl/tweetnacl.c:740", "dilithium2/sign.c:133", "sphincs/sign.c:130-133"]}
{"id": "C127", "title": "Key generation and the seed expander are not disturbed by other threads that write", "statement": "While other threads do anything at all to the memory, and draw from the random source as well: if seeded key generation ends it returns 0, and what it has stored is exactly the public and secret key of one 160-byte seed, every byte of which was at the seed pointer at some moment of the call. If key generation without a seed ends, its first draw was one of 160 bytes; if that failed it returned -1 and stored nothing, otherwise it returned 0 and stored exactly the key pair of the bytes it drew. A call that has not ended has stored only bytes of the Ed25519 keys or of the whole key pair of such a seed. If the seed expander ends it returns 0, and what it has stored is exactly the expansion of one 96-byte seed (32 bytes of SHAKE256 output, the seed bytes 64 to 95, 96 more bytes of SHAKE256 output), of which every byte that the expander uses (those at the even positions below 64 and those from 64 on) was at the seed pointer at some moment of the call. So unlike signing and compact open no call mixes two readings of the same byte. The bytes need not have been there at the same time: for every two seeds there is a schedule of the call and a thread that overwrites the first seed with the second, such that the call returns 0 with the key pair of the first 32 bytes of the one followed by the last 128 bytes of the other.", "quantifier": "For all memories with the buffers below the stacks (any overlap of the buffers included), all numbers and programs of other threads, all schedules, all fuel; for the last part all well-formed memories, seeds and disjoint key buffers.", "why_tests_cant": "Tests run one schedule of one thread; no test changes the seed while it is being read.", "anchors": ["hybrid-dilithium-sphincs/hybrid.c:140-172", "hybrid-dilithium-sphincs/hybrid.c:174-245", "hybrid-dilithium-sphincs/hybrid.c:247-257"]}
{"id": "C128", "title": "Dilithium-only verification reads behind the signature buffer when another thread writes to it", "statement": "Full claim: whatever other threads do, crypto_verify_dilithium reads only the 2420 bytes of the signature, the mlen bytes of the message and the 1312 bytes of the public key. This is false of the code: unlike the open and verify functions of the hybrid modes it passes the caller's buffers straight to Dilithium verification, and the hint decoder there checks a count byte of the signature against OMEGA and then reads the same byte from memory again as the bound of its loop. The attack: let the signature buffer be the last 2420 bytes of its block, its first count byte at most 80, and v a byte above 84 such that the last 84 bytes increase strictly once v replaces that count; then a thread that stores v there, between the two reads, makes the call read the first byte behind the block, which is undefined behaviour. A concrete signature of this kind is given. Proved besides: alone, the call in single byte reads gives what the sequential model gives; whatever other threads do, it never writes, and reads at most 171 bytes behind the 2420 bytes of the signature; if the four count bytes (2416 to 2419) keep their values during the call, the full claim holds, and as long as the buffers stay allocated the call has no undefined behaviour; if 171 more bytes are allocated behind the signature, it has none whatever other threads write, so the read behind the buffer is the only thing that can go wrong (the arithmetic is defined also on bytes read at different times); and the other functions of the API access only the buffers that their headers imply, whatever other threads do.", "quantifier": "For all memories, other threads, schedules, messages, lengths and fuel; the attack for all well-formed memories with such a signature and all message lengths the call accepts.", "why_tests_cant": "Tests run one thread and do not see a read behind a buffer.", "anchors": ["hybrid-dilithium-sphincs/hybrid.c:698-711", "dilithium2/packing.c:214-260", "dilithium2/sign.c:257-328"]}
{"id": "C129", "title": "What Dilithium-only verification accepts when another thread writes to the signature", "statement": "Full claim: if crypto_verify_dilithium returns 0, there are a signature of 2420 bytes, a message of mlen bytes and a public key of 1312 bytes, each byte of which was at its place in the caller's memory at some moment of the call, such that the signature is a valid Dilithium signature of the message under the key. This is false of the code: the hint decoder reads the last count byte again (packing.c:249) after it has checked it (line 237), and lets the new value decide which hint positions must be zero. The attack: let x be a valid signature of the message under the key, and let the buffer hold x with arbitrary bytes in the hint positions that x does not use; then a thread that only stores one byte v of at least 80 over the last count, at the right moment, makes the call return 0. If one of the arbitrary bytes is not zero and v is above 80, no combination of bytes that were ever in the buffer is a signature of any message under any key, since a buffer with a last count above 80, or with a nonzero byte in a position from its last count on, is valid for nothing. A concrete key, message and buffer of this kind are given, and they refute the full claim even for other threads that write only inside the signature buffer. What holds: as long as the bytes of the signature and of the key keep their values, whatever other threads do to the message and to the rest of memory, the call returns 0 only if the signature length is 2420, the message length is 1 to 64 and the signature is valid, under the key, for a message each byte of which was at its place at some moment.", "quantifier": "For all memories, other threads, schedules, message lengths and fuel; the attack for all well-formed memories, keys, messages of 1 to 64 bytes outside the last count byte, valid signatures and bytes in their unused positions, and all fuel from some bound on.", "why_tests_cant": "Tests run one thread; that a second read of the same byte can change what is accepted does not show in any single-threaded run.", "anchors": ["hybrid-dilithium-sphincs/hybrid.c:698-711", "dilithium2/packing.c:214-260", "dilithium2/sign.c:257-328"]}
{"id": "C130", "title": "What Dilithium-only verification has checked when it returns 0, whatever other threads write", "statement": "Let crypto_verify_dilithium run while other threads do anything at all to the message, the signature and the public key. If it returns 0, the signature length is 2420, the message has 1 to 64 bytes, and there are a challenge hash, a seed, a public key and a message, every byte of which was at its place at some moment of the call, vectors z and t1, each coefficient of which is decoded from the three or two bytes at its place in the signature or the key as they were at some moments (a byte with bits of two coefficients is read for each of them and may differ), and four hint polynomials with coefficients 0 and 1 whose ones are at positions given by bytes that were at some moment among the 255 bytes from the hint part on, such that z is within its bound and the equation of Dilithium verification holds with the matrix of the seed, t1, and the hash of the key. With seed and t1 of that key, bounded hints and the encoding, this equation is validity. Nothing better holds for the key: for any two keys and any signature with the equation for seed and t1 of the first and the hash of the second, a thread that turns the first key into the second at the right moment gets it accepted, and in a concrete case, with a single byte of the key changed, the accepted buffer is not a signature of the message under any key that can be put together from bytes that were in the key buffer.", "quantifier": "for all messages, signatures, keys and addresses, all numbers of other threads and all they do, and all schedules; existential for the attack (for every pair of keys and signature with the mixed equation there is a schedule), with one concrete case", "why_tests_cant": "The number of schedules and of things other threads can do is unbounded, and the mixed acceptance needs a write between two particular reads of the key, which no test of a single thread can show.", "anchors": ["hybrid-dilithium-sphincs/hybrid.c:698-711", "dilithium2/sign.c:257-328", "dilithium2/packing.c:214-260", "dilithium2/poly.c:618-630", "dilithium2/poly.c:790-822"]}
{"id": "C131", "title": "Other threads cannot keep a call from ending", "statement": "Each of the ten functions of the hybrid library, run as a sequence of single accesses to memory, has ended when it has had a fixed number of turns, however many other threads there are, whatever they write to its buffers and whatever the schedule: 224 for the seed expander, 5632 and 5635 for key generation with and without seed, 55423, 53886 and 54026 for full sign, open and verify, 5415, 4134 and 4274 for compact sign, open and verify, and 10728 for Dilithium-only verification. (A turn is one byte read or written, one draw or one local array entered or left; what is computed on local data belongs to the turn before it.) The loop bounds that are read from shared memory, the message length in the signature and the hint counts, which Dilithium-only verification reads again before every iteration, cannot make a call longer. With 171 more bytes allocated behind the signature, Dilithium-only verification has then returned, unless rejection sampling has not ended. If nobody changes signature, message and key during the call, it has then returned what it returns alone, whatever happens elsewhere in memory, also right behind the signature; in particular any number of threads can verify the same signature in the same buffers and all get the result of a single call. A call of one of the first nine functions that returns 0 does so exactly at a turn that the two lengths it is given determine, whatever the bytes of keys, seed, message and signature are and whatever other threads write: 224, 5632, 5635, 55103 + 5 mlen, 53758 + 2 (smlen - 52342), 53770 + 2 (smlen - 52342) + 2 mlen, 5223 + 3 mlen, 3942 + 3 (smlen - 2526) and 3954 + 3 (smlen - 2526) + 2 mlen; for messages of 64 bytes these are the numbers above. Dilithium-only verification that returns 0 has had at least 6512 + mlen turns.", "quantifier": "For all arguments (NULL included), memories, numbers of other threads and what they do, schedules, and all component algorithms (the exact turns: for those of the library); fuel arbitrary.", "why_tests_cant": "Tests run one thread; a loop whose bound another thread keeps raising does not occur in them, and a fixed bound for all schedules cannot be observed.", "anchors": ["hybrid-dilithium-sphincs/hybrid.c:140-711", "dilithium2/packing.c:214-260", "dilithium2/sign.c:257-328"]}
